#!/usr/bin/env python3
"""Generates /verif/properties.jsonl (one JSON object per line)."""
import json, os
P = []
def p(title, statement, quantifier, why, *anchors):
    P.append(dict(id="C%02d" % (len(P)+1), title=title, statement=statement,
                  quantifier=quantifier, why_tests_cant=why, anchors=list(anchors)))

POLY="casadi_extras/collocation/polynomial.py"
BUT="casadi_extras/collocation/butcher.py"
PW="casadi_extras/collocation/piecewise_poly.py"
COL="casadi_extras/collocation/collocation.py"
TRJ="casadi_extras/system_trajectory.py"
DAE="casadi_extras/dae_model.py"
INEQ="casadi_extras/inequality.py"
ST="casadi_extras/structure3.py"

# ---------------------------------------------------------------- polynomials
p("Lagrange basis is cardinal",
  "For pairwise distinct nodes, PolynomialBasis(tau).poly holds exactly len(tau) polynomials, each of degree len(tau)-1 = order, and poly[j] evaluates to 1 at tau[j] and to 0 at every other node.",
  "every non-empty list of pairwise distinct nodes (any length, any order, any values) and every pair of node indices",
  "tests use a few fixed node sets; the claim is about every node set of every length",
  POLY+":PolynomialBasis.__init__")
p("interpolationMatrix reproduces polynomials",
  "PolynomialBasis(tau).interpolationMatrix(t) has one row per query point and one column per node, its entry (i,j) is poly[j](t[i]), whether t[i] coincides with a node or not and whether it lies inside or outside the node range; hence multiplying node values of any polynomial of degree <= order by it returns the polynomial's values at t. Every row sums to one.",
  "every list of distinct nodes, every non-empty list of query points, every polynomial of degree at most the order",
  "the code has two branches (at a node / between nodes) that must agree for every real query point",
  POLY+":PolynomialBasis.interpolationMatrix")
p("Differentiation matrix is exact",
  "PolynomialBasis(tau).D maps the node values of every polynomial of degree <= order to the node values of its derivative; D[j,k] = poly[k]'(tau[j]); every row of D sums to zero.",
  "every list of distinct nodes and every polynomial of degree at most the order",
  "tests check D for one set of four nodes; the barycentric formula with its special diagonal must be right for every n",
  POLY+":PolynomialBasis.__init__")
p("compose returns the polynomial with the given coordinates",
  "PolynomialBasis(tau).compose(c) returns one polynomial per row of c; the i-th is sum_j c[i,j]*poly[j], so when c has one column per node it takes the value c[i,k] at tau[k] and is the only polynomial of degree <= order that does.",
  "every list of distinct nodes and every coefficient matrix",
  "holds for every matrix size and every value, including rows whose leading coefficients cancel",
  POLY+":PolynomialBasis.compose")
p("The two interpolators agree",
  "polynomialInterpolator(x)(u, xq) and barycentricInterpolator(x)(u, xq) return the same values, namely those of the unique polynomial of degree < len(x) through the points (x[k], u[:,k]).",
  "every non-empty list of distinct nodes, every data matrix with one column per node and every non-empty list of query points",
  "equality of two algorithms (Vandermonde solve, barycentric formula) on all inputs",
  POLY+":polynomialInterpolator", POLY+":barycentricInterpolator")
p("Chebyshev points form a proper grid on [0,1]",
  "collocationPoints(order,'chebyshev') returns order+1 points; for order>=1 the first is 0, the last is 1, they are strictly ascending and symmetric about 1/2. For the other schemes the result is 0 followed by the scheme's points.",
  "every order",
  "statement about the cosine at every order, not at sampled orders",
  POLY+":collocationPoints")
p("cheb grid and differentiation matrix",
  "cheb(N,t0,tf) returns (D,t) with len(t)=N+1, t[0]==t0, t[-1]==tf (as documented), and D maps values at t of every polynomial of degree <= N to the values at t of its derivative, for t0<tf and for t0>tf.",
  "every N>=1, all distinct t0, tf and every polynomial of degree <= N (N=0 is the documented claim's exception)",
  "tests tabulate N<=3 and one smooth function at N=20",
  POLY+":cheb")
# ---------------------------------------------------------------- butcher
p("Butcher tableau of a collocation method integrates polynomials exactly",
  "For tableau = butcherTableuForCollocationPoints(tau) and every polynomial p of degree < len(tau): (A p(c))_i = integral of p over [0,c_i] and b.p(c) = integral of p over [0,1]; A is square of size len(tau), c is tau.",
  "every list of distinct nodes and every polynomial of degree < number of nodes",
  "tests sample random polynomials for 1..4 Legendre nodes",
  BUT+":butcherTableuForCollocationPoints")
p("Tableau consistency",
  "In such a tableau every row of A sums to the node c_i, b sums to 1, and if the last node is 1 then b is the last row of A (stiff accuracy, as for Radau nodes).",
  "every non-empty list of distinct nodes",
  "must hold for every node set",
  BUT+":butcherTableuForCollocationPoints")
p("Quadrature order of the weights",
  "If the node polynomial prod (X - c_i) integrates to zero over [0,1] against every polynomial of degree < m, then b integrates every polynomial of degree < len(tau)+m exactly; and the converse holds as well.",
  "every list of distinct nodes, every m and every polynomial of degree < s+m",
  "superconvergence is a statement about all polynomials",
  BUT+":butcherTableuForCollocationPoints")
p("ButcherTableau constructor accepts exactly consistent shapes",
  "ButcherTableau(A,b,c) succeeds iff A is square and b, c are vectors of A's size, and then returns exactly the arrays supplied.",
  "every combination of array shapes",
  "shape space is unbounded",
  BUT+":ButcherTableau")
# ---------------------------------------------------------------- piecewise
p("PiecewisePoly selects the right interval",
  "Evaluating a PiecewisePoly at t uses, for continuity='right', the interval i with t_i <= t < t_{i+1}; for 'left', the one with t_i < t <= t_{i+1}; below the first bound the first interval and beyond the last bound the last interval are extrapolated. At an interior bound the two modes return the right-hand and the left-hand polynomial. Any other mode raises ValueError.",
  "every strictly ascending list of at least two bounds, every query point and every coefficient data",
  "boundary cases on every grid",
  PW+":PiecewisePoly.__call__")
p("PiecewisePoly reproduces its data",
  "At the point t_n + (t_{n+1}-t_n)*tau_j inside interval n the value of the PiecewisePoly is column j of coefficients[n]; on interval n the value is a polynomial in t of degree <= order.",
  "every grid, basis, coefficient matrices, interval and node lying in the interval",
  "for every grid and basis",
  PW+":PiecewisePoly.__call__")
p("PiecewisePoly.derivative is the derivative",
  "pp.derivative() is a PiecewisePoly on the same intervals whose value on each interval is the derivative with respect to t of the polynomial that pp follows on this interval.",
  "every grid, basis with distinct nodes, coefficients, interval and point",
  "no test covers it; chain-rule factor must be right on every interval",
  PW+":PiecewisePoly.derivative")
p("PiecewisePoly.poly returns the local polynomial",
  "pp.poly(n) returns polynomials p with p[i](t) = pp(intervals[n]+t)[i,:] for t in the interval, for every coefficient data. Interval numbers count from the end when negative, and numbers outside -N..N-1 raise IndexError.",
  "every grid, basis, coefficient matrix, interval n and t with intervals[n]+t in the n-th interval",
  "the test uses random (hence full degree) data only; data whose interpolant has lower degree behave differently",
  PW+":PiecewisePoly.poly", POLY+":PolynomialBasis.compose")
p("PiecewisePoly.discretize samples finely enough and includes all interval ends",
  "pp.discretize(step) returns x and y such that x is ascending, starts at the first and ends at the last bound, contains both ends of every interval, consecutive points are never more than step apart, x has one column of y per point, and y is the value of the interval polynomial at x.",
  "every strictly ascending grid, every step > 0, every coefficient data",
  "rounding-up logic for every ratio of step and interval length",
  PW+":PiecewisePoly.discretize")
# ---------------------------------------------------------------- Pdq
p("Pdq grid",
  "Pdq(t,order) with N intervals and order>=1 succeeds iff N>=1 and t is strictly ascending; then collocationPoints has N*order+1 elements, is strictly ascending, contains t[k] at position k*order for every k<N, and for schemes whose last point is 1 also t[N] at position N*order, so t0==t[0], tf==t[-1], intervalLength()==t[-1]-t[0].",
  "every grid and order, every scheme of ascending points starting at 0",
  "for all N and order",
  COL+":Pdq.__init__", COL+":Pdq.t0", COL+":Pdq.tf", COL+":Pdq.intervalLength")
p("Pdq.derivative is exact on piecewise polynomials",
  "If y holds the values at collocationPoints of a continuous function that is a polynomial of degree <= order on each interval, Pdq.derivative(y) holds, at every collocation point but the last, the derivative of the piece to the right of this point.",
  "every grid, order, scheme and every continuous piecewise polynomial",
  "Pdq tests are disabled; the property depends on the scheme (it fails for Legendre points with several intervals)",
  COL+":Pdq.derivative", COL+":Pdq.__init__")
p("Pdq.integral inverts Pdq.derivative",
  "y = Pdq.integral(dy) returns values at all collocation points but the first such that, with a zero prepended, Pdq.derivative gives back dy; conversely integral(derivative(y)) = y[:,1:] - y[:,0].",
  "every grid, order, scheme and every matrix of derivative values",
  "solvability of the linear systems and accumulation over intervals for all N",
  COL+":Pdq.integral")
p("Pdq.expandInput holds the input constant on each interval",
  "Pdq.expandInput(u) has order columns per interval and column k*order+j is u[:,k]; it raises unless u has one column per interval.",
  "every grid, order and input matrix",
  "for all N, order; the only test is disabled and expects order+1 columns per interval",
  COL+":Pdq.expandInput")
p("Pdq interpolators reproduce the data",
  "The function Pdq.interpolator('both') evaluated at any collocation point returns the given value at that point, is on each interval the polynomial through the interval's points and is continuous at interval bounds; interpolator('right') evaluated at any collocation point but the last returns the given value and jumps at bounds to the right-hand data. Queries outside the grid extrapolate the first or last piece. A wrong number of data columns raises ValueError.",
  "every grid, order, data matrix and query point",
  "interval lookup at bounds for all grids",
  COL+":_PdqInterpolator", COL+":Pdq.interpolator")
p("Pdq.interpolator('left') is usable",
  "Pdq.interpolator('left') with one value per collocation point but the first returns, at every collocation point but the first, the given value.",
  "every grid, order, data matrix",
  "no test uses this mode",
  COL+":_PdqInterpolator.__call__")
p("SystemTrajectory reproduces its samples",
  "SystemTrajectory(x,z,u,pdq) is accepted iff x has one column per collocation point and z,u one fewer; state, algState and input return the supplied columns at the corresponding collocation points; time is the grid given to pdq.",
  "every grid, order and data matrices",
  "for all grids, tests use order 1 and one grid",
  TRJ+":SystemTrajectory")
# ---------------------------------------------------------------- scheme
p("Collocation scheme integrates the state consistently",
  "In CollocationScheme, for any values of x and K, the state X at collocation points and the extrapolated end states are those of the polynomial that starts at x[:,n] at t[n] and has derivative K at the collocation points of interval n: X equals this polynomial at tc and the end state equals it at t[n+1].",
  "every DAE, grid, number of points, distinct nodes, and values of x, K",
  "index arithmetic of the Kronecker products for all N, M",
  COL+":CollocationScheme.__init__")
p("Collocation equations mean what they should",
  "scheme.eq evaluates to zero iff (a) the DAE residual is zero at every collocation point, evaluated with that point's K, X, Z, the interval's input, the parameter, the time tc and tdp_fun(tc); (b) the end state of every interval equals the next x; (c) with repeat_param all parameter columns are equal. It has exactly (nx+nz)*N*M + nx*N (+ np*(N*M-1) with repeat_param) components.",
  "every DAE, grid, method and values of all variables",
  "equivalence over all variable values and all sizes",
  COL+":CollocationScheme.__init__", COL+":CollocationScheme.eq")
p("Collocation points and inputs per interval",
  "scheme.tc has N*M entries, entry n*M+j is t[n]+(t[n+1]-t[n])*c[j]; scheme.U has N*M columns and column n*M+j is u[:,n]; numTotalCollocationPoints is N*M.",
  "every grid and method",
  "for all N, M",
  COL+":CollocationScheme.tc", COL+":CollocationScheme.U")
p("Quadrature state",
  "scheme.q has N+1 columns, starts at 0 and its increment over interval n is the integral over the interval of the polynomial through the quad values at the collocation points; scheme.Q at a collocation point is q[:,n] plus the integral of this polynomial from t[n] to that point.",
  "every DAE, grid, nodes and values of the variables",
  "accumulation over all intervals",
  COL+":CollocationScheme.__init__")
p("Integrator solves a square system",
  "The equation system that collocationIntegrator hands to the rootfinder (collocation equations plus initial condition) has exactly as many equations as unknowns (x,K,Z).",
  "every well-formed DAE, grid and order",
  "size identity for all dimensions",
  COL+":CollocationIntegrator.__init__")
p("Collocation is exact on polynomial solutions",
  "If the DAE has a solution whose state is a polynomial of degree <= M on the time span (M collocation points per interval), the corresponding values of x, K, Z satisfy scheme.eq == 0, and X, q are the exact state and (for quad of degree < M along the solution) the exact integral.",
  "every DAE and every polynomial solution, every grid",
  "quantifies over all DAEs and solutions",
  COL+":CollocationScheme.__init__", COL+":CollocationIntegrator")
p("piecewisePolyX is the collocation polynomial",
  "scheme.piecewisePolyX(x,K) takes the value x[:,n] at t[n], X at the collocation points, has derivative K at the collocation points, and tends to the extrapolated end state at t[n+1], so it is continuous when the continuity equations hold. Requires collocation nodes different from 0.",
  "every grid, node set not containing 0, values x, K",
  "for all sizes and values",
  COL+":CollocationScheme.piecewisePolyX")
p("Integrator outputs are mutually consistent",
  "If the rootfinder returns a root, collocationIntegrator's outputs satisfy: x[:,0]==x0, xf==x[:,1:], X and the end states follow from x and K, the DAE residuals vanish at all collocation points, qf is the last quadrature value, and zf is NaN of size nz.",
  "every DAE, grid, inputs, parameters and every root",
  "for every root, not one sample",
  COL+":CollocationIntegrator.__init__")
# ---------------------------------------------------------------- DAE
p("SemiExplicitDae accepts exactly well-formed models",
  "SemiExplicitDae(**kw) raises KeyError if x or ode is missing and ValueError if x, z, u, ode or alg is not a column, if x, z, u, p, t or tdp is not purely symbolic, if t is not scalar, if ode has not as many elements as x, or a supplied alg not as many as z; otherwise it succeeds, and omitted parts are empty (t a fresh scalar).",
  "every combination of keyword arguments",
  "combinatorial space of arguments",
  DAE+":Dae.__init__", DAE+":SemiExplicitDae.__init__")
p("makeImplicit preserves the model",
  "For a SemiExplicitDae, makeImplicit() returns an ImplicitDae with the same x,z,u,p,t,quad,tdp, whose residual is zero at (xdot,x,z,u,p,t,tdp) iff xdot = ode and alg = 0 there; nx+nz residuals. On an ImplicitDae makeImplicit is the identity.",
  "every accepted SemiExplicitDae and every value of all variables",
  "equivalence over all values; succeeds for every accepted model is false if alg is omitted while z is not empty",
  DAE+":SemiExplicitDae.makeImplicit", DAE+":ImplicitDae")
p("parallel connects models",
  "parallel(models) returns a DAE model whose x,z,u,p,quad are the stacked ones of the models (dimensions add up) and whose right-hand sides ode and alg are the stacked right-hand sides.",
  "every list of semi-explicit models",
  "for every list; also the result must be usable as a model",
  DAE+":parallel")
# ---------------------------------------------------------------- inequality
p("Inequality shape invariant",
  "Inequality(expr,lb,ub,nominal) succeeds iff every supplied lb, ub, nominal has the shape of expr; then lb and ub have that shape, and omitted bounds are -inf and +inf everywhere, i.e. impose nothing.",
  "every expression shape and every combination of supplied or omitted arguments",
  "all shapes",
  INEQ+":Inequality.__new__", INEQ+":BoundedVariable.__new__")
p("vertcat of inequalities is their conjunction",
  "For inequalities of column shape with nominal values, vertcat(list) and vertcat(dict) return an inequality with the sum of the element counts that is satisfied by a value iff every part is satisfied by its part of the value; lower, upper and nominal values stay aligned with their expressions (for a dict: i.lb[k] is the lb of part k).",
  "every list or dict of inequalities (any number, any sizes) and every assignment of values",
  "alignment for every number of parts",
  INEQ+":vertcat")
p("vertcat needs nominal values",
  "vertcat raises if any of the inequalities was created without a nominal value although such inequalities are otherwise valid.",
  "every non-empty list or dict of inequalities at least one of which has no nominal",
  "no test covers it",
  INEQ+":vertcat", INEQ+":Inequality.__new__")
# ---------------------------------------------------------------- struct
p("Struct layout is a partition",
  "In a struct whose order names each entry exactly once, every position of .cat belongs to exactly one element of exactly one primitive entry: the index sets s.i[...] / s.f[...] of distinct canonical indices are disjoint and together are 0..size-1, each nonzero of each primitive once.",
  "every struct (any nesting, repeats, shapes, grouping)",
  "quantifies over all struct definitions",
  ST+":CasadiStructure.__init__", ST+":Structure.traverseCanonicalIndex")
p("Struct size",
  "size is the sum over entries of (product of repeat counts) * (number of nonzeros of the shape, or size of the nested struct).",
  "every struct whose order names each entry exactly once",
  "all nestings",
  ST+":CasadiStructure.__init__")
p("Order of .cat",
  "Without grouping, .cat holds the entries one after another in order of definition (or of the order argument), repeats in row-major order of the repeat indices, each matrix column by column; nested structs are laid out contiguously with their own layout, so the block of a nested struct is that struct's .cat.",
  "every struct without grouping",
  "all nestings",
  ST+":CasadiStructure.__init__", ST+":StructEntry.traverseCanonicalIndex", ST+":listindices")
p("Grouped entries are interleaved round-robin",
  "A tuple of entries in the definition is laid out round-robin: first repeat of each, then second repeat of each, and so on, entries with fewer repeats dropping out; no element is lost or duplicated.",
  "every group of entries with any repeat counts",
  "all lengths",
  ST+":intersperse", ST+":Structure.traverseCanonicalIndex")
p("Flat index lookup round trip",
  "getCanonicalIndex(i) raises unless 0<=i<size; otherwise s.f[s.getCanonicalIndex(i)] == [i] (extraMode 1 or 2).",
  "every struct and every integer i",
  "all structs; true only for dense shapes (mode 1) and symmetric positions (mode 2)",
  ST+":CasadiStructure.getCanonicalIndex")
p("Struct write then read",
  "For a numeric (DM) struct, after s[idx]=v with v of the entry's shape (or scalar), s[idx] reads v (scalar broadcast), whatever the history of writes before; .cat changes only at the positions of idx and every other entry reads as before.",
  "every struct, canonical index, value and previous content",
  "all structs, all histories",
  ST+":SetterDispatcher", ST+":GetterDispatcher", ST+":MasterSettable.__setitem__")
p("Shape mismatch is rejected",
  "Writing a matrix whose shape is neither that of the entry, nor scalar, nor (for vectors) its transpose raises and leaves .cat unchanged.",
  "every struct, entry and value shape",
  "all shapes",
  ST+":SetterDispatcher")
p("Negative and sliced repeat indices",
  "s['x',-k] is s['x',n-k] for 1<=k<=n; s['x',a:b:c] is the list of s['x',i] over Python's slice of range(n); s['x'] is the (nested) list over all repeats; an out-of-range integer raises.",
  "every repeat count, every integer and slice, every nesting of repeats",
  "all integers and slices",
  ST+":StructEntry.traverseByPowerIndex", ST+":canonical")
p("List assignment is aligned by repeat index",
  "s['x',sel]=L for a list or slice sel writes L[i] to repeat i for every i in sel (L indexed by the repeat number, not the position in sel); a list that is too short raises; a non-list value or repeated(v) is written to every selected repeat.",
  "every repeat count, selection and payload",
  "all selections",
  ST+":payloadUnpack", ST+":StructEntry.traverseByPowerIndex")
p("Struct from dict",
  "struct(d) for a dict d raises unless the keys of d are exactly the struct's keys; otherwise the result reads d[k] at every key k and its .cat is the concatenation of the values.",
  "every struct and dict",
  "all key sets and values",
  ST+":CasadiStructureDerivable.__call__")
p("Struct from data",
  "struct(a) for a scalar fills every element with it; for a column of length size it takes over exactly these data (struct(s.cat) == s); any other length raises.",
  "every struct and every column vector",
  "all sizes",
  ST+":CasadiStructureDerivable.__call__", ST+":MatrixStruct.__init__")
p("parseMatrix splits the rows of a matrix",
  "struct.parseMatrix(data) for a struct of primitive column entries and data with size rows returns for every key the submatrix of the rows of this key, so that stacking the results in key order gives back data.",
  "every such struct and every data matrix with at least one column",
  "all sizes; a matrix with a single row is silently broadcast",
  ST+":CasadiStructureDerivable.parseMatrix")
p("repeated() gives a per-column view",
  "struct.repeated(M) for a matrix with size rows: indexing with column number j then key k reads the part k of column j of M; assigning through it changes exactly these elements of the matrix that the view casts to.",
  "every struct, matrix, column and key",
  "all sizes and histories of writes",
  ST+":CasadiStructureDerivable.repeated", ST+":DataReferenceRepeated")
p("squared()/product() give block access",
  "struct.squared(M)[a,b] and struct.product(other,M)[a,b] read the submatrix with the rows of key a and columns of key b; writes change exactly that block; a wrong shape raises; a scalar (including the default 0) is broadcast to all elements.",
  "every pair of structs, matrix and keys",
  "all sizes; the broadcast claim fails for product when the first struct has size 1",
  ST+":CasadiStructureDerivable.squared", ST+":CasadiStructureDerivable.product", ST+":delegation", ST+":performExtraIndex")
p("struct_MX assembles its expressions",
  "struct_MX([entry(k,expr=e),...]).cat is the column of all elements of the expressions in order; s[k] reads e; reading before all entries are assigned raises; assigning an expression of different shape, or to a sub-element, raises and leaves the struct unchanged; re-assigning replaces exactly that entry.",
  "every list of named expressions, every sequence of assignments",
  "all histories",
  ST+":MXVeccatStruct")
p("struct_MX_mutable read sees the latest write",
  "For a struct_MX_mutable, s[k] after s[k]=e reads e.",
  "every struct and every sequence of writes",
  "requires a history construct-write-read; tests read only cat after writes",
  ST+":MXStruct", ST+":VertsplitStructure.buildMap", ST+":GetterDispatcher")
p("vertsplit map agrees with the index map",
  "For a symbolic MX struct, s[k] for a top-level or nested struct or primitive is exactly the elements of .cat at the positions s.i[k].",
  "every struct and canonical index",
  "two independently computed layouts must agree on all structs",
  ST+":VertsplitStructure.buildMap", ST+":CasadiStructure.__init__")
p("Symmetric entries",
  "Reading an entry of type='symm' always yields a symmetric matrix; writing a symmetric matrix and reading it yields the same matrix; element (i,j) and (j,i) read the same; size counts only the upper triangle.",
  "every size n, matrix and history of writes",
  "all sizes; element access below the diagonal is part of the claim",
  ST+":SetterDispatcher", ST+":GetterDispatcher", ST+":CasadiStructEntry")
p("Pickling preserves data",
  "Unpickling a pickled DM struct, or a list of DM structs, yields structs with the same layout and the same data.",
  "every struct and data, every list of struct values (possibly sharing a struct)",
  "sharing patterns are unbounded",
  ST+":DMStruct.__getstate__", ST+":DMStruct.__setstate__")
p("Struct definition errors",
  "Duplicate entry names raise; an order argument naming an unknown entry raises; an order argument that omits or repeats an entry raises too (so that the layout covers each entry once).",
  "every entry list and order argument",
  "all orders; the last clause is not enforced by the code",
  ST+":EntryList.__init__", ST+":Structure.__init__")
p("Nested lists of expressions",
  "entry(name,expr=L) for a nested list L of expressions gives repeat counts equal to the list lengths and all expressions of L are stored; ragged nested lists raise.",
  "every nested list",
  "all shapes; truncation is silent",
  ST+":CasadiStructEntry.__init__", ST+":payloadUnpack")
p("prefix is index concatenation",
  "s.prefix[p][q] reads what s[p+q] reads and s.prefix[p][q]=v writes what s[p+q]=v writes.",
  "every struct, prefix, index, value",
  "all indices",
  ST+":Prefixer")
p("Failed list assignment",
  "If an assignment raises part-way through a list or dict payload, .cat is unchanged.",
  "every struct, payload and failing position",
  "crash-point property; the code performs no rollback",
  ST+":StructEntry.traverseByPowerIndex", ST+":SetterDispatcher")
p("Reading everything as dict or list and writing it back is the identity",
  "Assigning s[...] (or s[{}]) of one DM struct to t[...] (or t[{}]) of another of the same layout makes them equal.",
  "every struct and contents",
  "all structs and data",
  ST+":Structure.traverseByPowerIndex")
p("ImplicitDae accepts exactly well-formed models",
  "ImplicitDae(**kw) succeeds iff the common arguments are well-formed as for SemiExplicitDae, xdot is a column with as many elements as x, and dae is a column with nx+nz elements; the object keeps the supplied parts and omitted parts are empty.",
  "every combination of keyword arguments",
  "all combinations of present, absent and malformed arguments",
  "casadi_extras/dae_model.py:ImplicitDae.__init__", "casadi_extras/dae_model.py:Dae.__init__")
p("Ellipsis, dict, set and nesteddict indices distribute over the entries",
  "At a struct or nested struct, s[a,...,r] is the list over all entries k in layout order of s[a,k,r]; s[a,{},r] is the dict of the same (in definition order); s[a,{k1,k2},r] the dict over the named entries. A list, dict or plain value assigned there is handed entry by entry (position by position, key by key in the order of the dict, the same value to all), the first failure propagating. s[a,nesteddict] does this at every level down to elements, with repetitions as lists.",
  "every struct, node at any depth, index continuation and payload",
  "all structures and depths",
  ST+":Structure.traverseByPowerIndex", ST+":StructEntry.traverseByPowerIndex", ST+":payloadUnpack")
p("Extra indices select parts of an element",
  "For an element a and one (column-major) or two (row, column) extra indices - integers, slices, lists of integers - s[a,x] is the corresponding submatrix of s[a], s[a,x]=v changes exactly the selected elements, and indices that are out of range or of another kind raise and change nothing.",
  "every struct, element, selection and content",
  "all shapes, patterns and selections, negative steps and indices",
  ST+":performExtraIndex", ST+":GetterDispatcher", ST+":SetterDispatcher")
p("Definition of an entry",
  "entry(name,**kw) succeeds iff all keywords are known, no two given keywords exclude each other, shapestruct (if given) is a structure or a tuple of one or two structures or integers, the arguments determine an element pattern (of the expression, else of the symbol, else the shape, else the sizes of the structures, else a scalar), and a type is 'symm' with a square pattern. The entry then has the given name, the given repeat counts (the list lengths for a nested list of expressions), and the determined pattern, restricted to the upper triangle for 'symm'.",
  "every combination and value of the keyword arguments",
  "all combinations of keywords, shapes and nested lists",
  ST+":CasadiStructEntry.__init__")
p("struct_symSX keeps given symbols",
  "In a struct_symSX every entry defined with sym=x reads as x, every element of the other entries reads as fresh symbols, distinct from each other; entries with expr raise, and struct_symMX raises for entries with expr or sym.",
  "every list of entries, order, symbols",
  "all structs and symbols",
  ST+":ssymStruct.__init__", ST+":msymStruct.__init__")
p("Labels identify the positions",
  "canonicalIndices(extraMode=0) lists the canonical index of every element, in the order of the vector, once per nonzero; labels(extraMode) with an extra index gives a different label to every position of the vector.",
  "every struct, every extraMode other than 0",
  "all structs and names; collisions need names with commas",
  ST+":CasadiStructure.canonicalIndices", ST+":CasadiStructure.getLabel", ST+":CasadiStructure.labels")
p("Flat getter s.f",
  "s.f[index] succeeds iff s.i[index] is a nested list of dense index matrices, and then lists their elements in order, all of them positions of the vector; it raises for elements that are not dense. If all primitive entries are dense and no nested struct is empty, s.f[...] lists every position exactly once, in increasing order if order has no groups.",
  "every struct and every power index without callables",
  "all structs and power indices",
  ST+":FlatIndexGetter", ST+":CasadiStructure.FlatIndexDispatcher", ST+":vec")
p("The struct of a nested entry",
  "getStruct(name) returns the struct of the nested entry with this name and raises for unknown names and for entries that are not nested. With t = s.getStruct(name) and a the name followed by one repeat index per dimension, t(s[a])[q] reads what s[a,q] reads for every non-empty index q (whose callables, if any, only rearrange and are applied to something), and s[a,q]=v does what b=t(s[a]); b[q]=v; s[a]=b does.",
  "every struct, nested entry with at least one element, repetition, index and value",
  "all structs, indices and data",
  ST+":Structure.getStruct", ST+":CasadiStructureDerivable.__call__")
p("What the collocation scheme rejects",
  "CollocationScheme(dae, t, order, method, tdp_fun) raises if t has fewer than two points, if the model has a time-dependent parameter and no function for it is given, if the model has quadratures that do not form a column, if its parameter has several rows and several columns, and (with two or more collocation points) if the function for the time-dependent parameter gives matrices with another non-zero number of rows.",
  "every model, grid, order and method",
  "all models and shapes",
  "casadi_extras/collocation/collocation.py:CollocationScheme.__init__")
p("combine",
  "scheme.combine(what) returns the attributes with the given names, in the given order, if the names are distinct and all of them are among K, x, Z, U, u, p, eq, q; it raises AssertionError if a name is not among them, and Exception if a name is repeated.",
  "every scheme and every list of names",
  "all lists of names",
  "casadi_extras/collocation/collocation.py:CollocationScheme.combine")
p("Objects that share data",
  "struct(v), squared(v), product(other, v), repeated(v) and squared_repeated(v) for a DM v refer to v itself (a scalar that is expanded gives a new matrix). In every program of such constructions, assignments through these objects and assignments to the matrices, each object reads and writes as if it had just been made from the matrix that it refers to, with the elements that the matrix has now; a write through an object changes this matrix and no other one.",
  "every program, every struct, index and value",
  "all interleavings of writes through several objects",
  ST+":MatrixStruct.__init__", ST+":CasadiStructureDerivable.argtype", ST+":DataReferenceRepeated", ST+":DataReferenceSquared", ST+":DataReferenceProduct", ST+":DataReferenceSquaredRepeated", ST+":SetterDispatcher")
p("Solutions keep linear balance laws",
  "If the model implies sum w[i]*xdot[i] = sum v[k]*quad[k], then at every solution of scheme.eq the weighted sum of the states at each interval bound and each collocation point is its initial value plus the same combination of the quadratures q and Q there (with v=0: the linear invariant is conserved exactly).",
  "every model, grid with different neighbours, distinct nodes, weights, solution",
  "all models and grids; tests compare with tolerances",
  COL+":CollocationScheme.__init__", COL+":CollocationScheme.eq")
p("Solutions with Gauss nodes keep quadratic balance laws",
  "If the nodes are Gauss nodes and the model implies d/dt x'Sx = sum v[k]*quad[k], then at every solution of scheme.eq x'Sx at each interval bound is its initial value plus the same combination of q there.",
  "every model, grid with different neighbours, Gauss nodes, matrix S, solution",
  "all models and grids; tests compare with tolerances",
  COL+":CollocationScheme.__init__", COL+":CollocationScheme.eq", BUT+":butcherTableuForCollocationPoints")
p("The tableau is symplectic exactly for Gauss nodes",
  "For distinct nodes tau the tableau satisfies b[i]*A[i,j] + b[j]*A[j,i] = b[i]*b[j] for all i, j if and only if tau are Gauss nodes (the node polynomial is orthogonal on [0,1] to all polynomials of smaller degree).",
  "every list of distinct nodes over a field of characteristic 0",
  "all orders and nodes",
  BUT+":butcherTableuForCollocationPoints")
p("Time reversal",
  "For nodes that are symmetric in [0,1] the tableau satisfies b[s-1-j] = b[j] and A[s-1-i,s-1-j] = b[j]-A[i,j], and the collocation equations on the reversed grid hold for the variables with reversed columns exactly if the equations on the grid hold for the variables; then the times and states at the collocation points are reversed and q runs backwards from its final value.",
  "every model, grid, symmetric distinct nodes, values of the variables",
  "all models, grids and values",
  BUT+":butcherTableuForCollocationPoints", COL+":CollocationScheme.__init__", COL+":CollocationScheme.eq")
p("Splitting the grid",
  "The collocation equations on a grid hold exactly if the equations on its first m intervals and those on the remaining intervals hold for the corresponding columns (the last state of the first part being the first of the second) with the same parameter; the states at the collocation points are those of the parts and q is continued additively.",
  "every model, grid, 0<m<N, nodes, values of the variables",
  "all models, grids and values",
  COL+":CollocationScheme.__init__", COL+":CollocationScheme.eq")
p("Existence and uniqueness of the collocation solution",
  "For a model xdot = f(x,u,p,t,tdp) without algebraic states whose right-hand side is Lipschitz in x with constant L, if L*|h_n|*max_j sum_k |A[j,k]| <= theta < 1 for all intervals, then for every initial state, inputs and parameter scheme.eq has a solution, and x, K and X of any two solutions agree.",
  "every such model over the reals, grid, nodes, initial state, inputs, parameter",
  "all right-hand sides and data; existence cannot be tested",
  COL+":CollocationScheme.__init__", COL+":CollocationScheme.eq")
p("Callables in power indices",
  "At a struct, a nested struct or an entry whose repeat indices are not all given, s[a,f,r] = f(s[a,r]) and s.i[a,f,r] = f(s.i[a,r]) for every callable f, and s[a,f,r] raises iff s[a,r] or f does. At an element that is not of type 'symm', s[a,f,r] is the part of the vector at the positions f(s.i[a,r]). s[a,f,r] = v writes v to the positions f(s.i[a,r]) if v fits, changes nothing else, and raises without a change if s.i[a,r] or f raises, whatever v is.",
  "every struct, index, callable, value",
  "all structs, indices and callables",
  ST+":Dispatcher", ST+":CasadiStructure.IMDispatcher", ST+":GetterDispatcher", ST+":SetterDispatcher")
p("Starting point of the integrator",
  "The root search of CollocationIntegrator starts with the state x0 at every grid point and collocation point, state derivative 0 and algebraic state z0 at every collocation point; this point solves the collocation equations exactly if the model with state x0, algebraic state z0, state derivative 0 and the inputs and parameters of the call has zero residual at all collocation points.",
  "every model for which the integrator can be constructed, grid, nodes, x0, z0, inputs, parameters",
  "all models, grids and data",
  COL+":CollocationIntegrator.__init__")
p("Dissipative and contractive models",
  "On an increasing grid with Gauss nodes, or with Radau nodes and x'Sx >= 0: if the model implies d/dt x'Sx <= sum v[k]*quad[k], then at every solution of scheme.eq x'Sx increases on each interval at most by the same combination of the increases of q; if x'Sx of the difference of two states does not increase along the model for equal inputs, parameters and times, then it does not increase from one interval bound to the next for two solutions of scheme.eq with equal inputs and parameter, and if x'Sx > 0 for x != 0 the states at the interval bounds are determined by the initial state. There is no limit on the length of the steps.",
  "every model over the reals, increasing grid, Gauss or Radau nodes, matrix S, solution",
  "all models, grids and step lengths",
  COL+":CollocationScheme.__init__", COL+":CollocationScheme.eq", BUT+":butcherTableuForCollocationPoints")
p("Collocation points at the interval bounds",
  "If a node is 1, then at every solution of scheme.eq time, state and quadratures at its collocation point are those of the next grid point and the residual of the model (with its algebraic equations) vanishes with the state at the grid point; if a node is 0, the same holds for the grid point where the interval begins.",
  "every model, grid, nodes, solution",
  "all models and grids",
  COL+":CollocationScheme.__init__", COL+":CollocationScheme.eq", BUT+":butcherTableuForCollocationPoints")
p("Convergence to the exact solution",
  "For a model xdot = f(x,u,p,t,tdp) without algebraic states that is Lipschitz in x with constant L, distinct nodes in [0,1] and steps of at most H with L*H*max_j sum_k |A[j,k]| <= theta < 1: if y solves the model for the inputs and parameter of a solution of scheme.eq and the M-th derivative of y' is bounded by B on each interval, then |x - y| at the grid points is at most exp(La*(t-t0))*(e0 + (t-t0)*C*H^M) with La = sum|b|*L/(1-theta), C = (1+sum|b|+La*H*(1+max_j sum_k |A[j,k]|))*B/(M-1)! and e0 the error of the initial state; a bound of the same order holds at the collocation points, and for q if the quadrature is Lipschitz in x.",
  "every such model over the reals, grid, nodes, solution, exact solution",
  "all right-hand sides; tests compare with tolerances on a few examples",
  COL+":CollocationScheme.__init__", COL+":CollocationScheme.eq", BUT+":butcherTableuForCollocationPoints")
p("The integrator for ordinary differential equations",
  "For a model xdot = f(x,u,p,t,tdp) without algebraic states that is Lipschitz in x, and steps that are short enough, the equations that CollocationIntegrator gives to the root finder have exactly one solution for all x0, z0, u, p; for every call in which the root finder finds a root, the returned states x, xf, X differ from the exact solution with initial state within e0 of x0 at most by the bounds of the property above, and qf from the exact integrals by the corresponding bound.",
  "every such model over the reals for which the integrator can be constructed, grid, nodes, x0, z0, u, p, exact solution",
  "all right-hand sides and data; tests compare with tolerances on a few examples",
  COL+":CollocationIntegrator.__init__")
p("Accuracy of Pdq and PiecewisePoly for smooth functions",
  "For samples of a function f that is smooth on each interval [t_n, t_{n+1}] of length h: interpolator('both') differs from f there at most by B*h^(order+1)/(order+1)! with B a bound of the derivative of order order+1; interpolator('right') of a function that may jump at the bounds by B*h^order/order! with B a bound of the derivative of order order; Pdq.derivative differs from f' at the collocation points at most by B*h^order/order! and Pdq.integral from the integral over [t_0, t] at most by (t-t_0)*B*H^order/order! (schemes that end in 1, or one interval); a PiecewisePoly with M nodes in [0,1] differs from f at most by B*h^M/M! and its derivative() from f' by B*h^(M-1)/(M-1)!.",
  "every scheme, order, grid, smooth function over the reals, query point",
  "all functions and grids; tests compare with tolerances on a few functions",
  POLY+":PolynomialBasis.interpolationMatrix", COL+":Pdq.interpolator", COL+":Pdq.derivative", COL+":Pdq.integral", PW+":PiecewisePoly.__call__", PW+":PiecewisePoly.derivative")
p("Classes of exceptions",
  "Whatever fails in s[...], s[...] = v or s.i[...] (unknown name, index out of range, wrong shape, an exception in a callable), the exception is a plain Exception; s(arg) and the definition of a struct raise nothing but Exception, entry(...) Exception or, because of type, TypeError; Inequality raises AssertionError or, if a bound cannot be converted, RuntimeError; model constructors raise KeyError only if a required keyword is missing and ValueError otherwise; Pdq with at least one interval, ButcherTableau, PiecewisePoly and SystemTrajectory raise nothing but AssertionError; PiecewisePoly.__call__ nothing but ValueError; apart from exceptions of cs.collocation_points and cs.Function, CollocationScheme raises ValueError for a single time point and in no other case, AssertionError if the model has a time-dependent parameter and tdp_fun is missing (at least two times) and in no other case, and otherwise RuntimeError; CollocationIntegrator raises nothing else",
  "every struct, power index, value, entry, model, grid, order, tdp_fun",
  "all failing inputs; a caller that catches a class must not miss one",
  ST+":Structure.traverseByPowerIndex", ST+":CasadiStructureDerivable.__call__", ST+":CasadiStructEntry.__init__", INEQ+":Inequality.__new__", DAE+":Dae.__init__", COL+":Pdq.__init__", PW+":PiecewisePoly.__call__", COL+":CollocationScheme.__init__", COL+":CollocationIntegrator.__init__")
p("Order of the method for linear models",
  "If the quadrature formula of M distinct nodes is exact for polynomials of degree less than P (P = 2M for Gauss nodes, 2M-1 for Radau nodes, at least M for all nodes), then the tableau satisfies b*A^k*(1,...,1) = 1/(k+1)! for all k < P; and for a model xdot = La*x + g(u,p) with max_i sum_j |La[i,j]| <= L and steps of at most H with L*H*max_j sum_k |A[j,k]| <= theta < 1, the states at the grid points of every solution of scheme.eq, and those that CollocationIntegrator returns, differ from the exact solution at most by exp(G*(t-t0))*(e0 + (t-t0)*D*H^P) with G = L*exp(L*H) + sum|b|*L*theta^P/(1-theta), D = (L^P/(P+1)! + sum|b|*(L*max_j sum_k |A[j,k]|)^P/(1-theta))*B, B a bound of the derivative of the exact solution and e0 the error of the initial state.",
  "all distinct nodes over any field of characteristic 0 (conditions on the tableau); every linear model over the reals, grid, nodes, solution, exact solution",
  "all nodes, models and grids; tests compare with tolerances on a few examples",
  BUT+":butcherTableuForCollocationPoints", COL+":CollocationScheme.__init__", COL+":CollocationScheme.eq", COL+":CollocationIntegrator.__init__")
p("Models with algebraic states of index one",
  "If the residual of a model determines derivative and algebraic state at given x, u, p, t, tdp at most once, Lipschitz in x with constants L and Lz (for a semi-explicit model xdot = f(x,z,..), 0 = g(x,z,..) this follows with L = Lx+Lf*a/m, Lz = a/m from Lipschitz constants Lx, Lf of f, a of g in x, and m*|z-z'| <= |g(x,z)-g(x,z')|), and steps are of at most H with L*H*max_j sum_k |A[j,k]| <= theta < 1, then: two solutions of scheme.eq with the same first state, inputs and parameter agree in x, X, K and Z; if the residual can be solved at all points, a solution exists for all x0, u, p; for distinct nodes in [0,1] and an exact solution (y, zeta) whose y' has the M-th derivative bounded by B, x differs from y at most by exp(La*(t-t0))*(e0 + (t-t0)*C*H^M), X, K and Z from y, y' and zeta at the collocation points by bounds of the same order, as do the outputs of CollocationIntegrator and the quadratures q.",
  "every such model over the reals, grid, nodes, solution, exact solution",
  "all models; tests compare the end values of one equation (alg = z*z - x) with tolerances",
  COL+":CollocationScheme.__init__", COL+":CollocationScheme.eq", COL+":CollocationIntegrator.__init__", DAE+":SemiExplicitDae", BUT+":butcherTableuForCollocationPoints")
p("Views of MX matrices by two structs",
  "squared(a), product(other, a) and squared_repeated(a) of a dense MX a give a view that casts to a and reads for every power index what the view of a DM a reads; after any sequence of writes through the view it raises, casts and reads as the view of a DM a after the same writes.",
  "every two structs, dense matrix, power index, sequence of writes",
  "all sequences of writes and power indices; no test has an MX view",
  ST+":CasadiStructureDerivable.squared", ST+":CasadiStructureDerivable.product", ST+":CasadiStructureDerivable.squared_repeated", ST+":VertsplitStructure.buildMap", ST+":MXStruct.__init__")
p("Pickling of objects of all classes",
  "Unpickling a pickled list of objects (struct, struct_symSX, struct_symMX, struct_SX, struct_MX_mutable, struct_MX, DM structs, and the CasadiStructure inside them) yields objects of the same classes with the same layouts; DM structs have the same data, symbolic structs new symbols.",
  "every list of such objects, with or without common or nested structs, whatever was pickled before",
  "sharing patterns are unbounded; no test pickles anything",
  ST+":CasadiStructure.__getstate__", ST+":CasadiStructure.__setstate__", ST+":CasadiStructured.__getstate__", ST+":CasadiStructured.__setstate__", ST+":DMStruct.__getstate__", ST+":DMStruct.__setstate__")
p("Order of the method at the grid points for nonlinear models",
  "If the quadrature formula of M distinct nodes in [0,1] is exact for polynomials of degree less than M+m with m >= 1 (m = M for Gauss nodes, M-1 for Radau nodes, never more than M), the model is xdot = f(x,u,p,t,tdp) with f Lipschitz in x with constant L and differentiable in x along the exact solution y with a Jacobian J(t) and a remainder of at most C2*|x-y|^2, and the steps are of at most H <= 1 with L*H*max_j sum_k |A[j,k]| <= theta < 1, then the states at the grid points of every solution of scheme.eq, and those that CollocationIntegrator returns, differ from y at most by exp(G*(t-t0))*(e0 + (t-t0)*D*H^(M+m)), where G and D are explicit expressions in L, theta, sum|b|, max_j sum_k |A[j,k]|, C2, bounds B of the derivatives of y' of the orders M..M+m and Ga of the derivatives of J of the orders 0..m-1, and e0 is the error of the initial state.",
  "every such model over the reals, grid, nodes, solution, exact solution",
  "all models, nodes and grids; tests compare with tolerances on a few examples",
  BUT+":butcherTableuForCollocationPoints", COL+":CollocationScheme.__init__", COL+":CollocationScheme.eq", COL+":CollocationIntegrator.__init__")
p("Order of the method at the grid points for models with algebraic states and for quadratures",
  "With nodes and steps as in the previous property: if the model is of index one (where the residual vanishes, xdot and z depend Lipschitz continuously on x) and xdot is, where the residual vanishes, differentiable in x along the exact solution with a quadratic remainder, then the states at the grid points of every solution of scheme.eq differ from the exact ones at most by an explicit constant times H^(M+m) plus the propagated initial error. If the quadrature expression is also Lipschitz in x and z, and differentiable in x along the solution, then scheme.q at the grid points differs from the exact integrals at most by such a bound as well. The outputs x, xf and qf of CollocationIntegrator satisfy the same bounds.",
  "every such model over the reals, grid, nodes, solution, exact solution",
  "all models, nodes and grids; tests compare the end values of one model with algebraic states (alg = z*z - x) on one interval with tolerances",
  BUT+":butcherTableuForCollocationPoints", COL+":CollocationScheme.__init__", COL+":CollocationScheme.eq", COL+":CollocationScheme.q", COL+":CollocationIntegrator.__init__")
p("Text of a struct",
  "str(s) and str(t) of two structs are equal exactly if the structs have the same total size, the same order and, one by one, entries with the same name, repeat counts, numbers of rows and columns, type (symm or not) and nested structs that correspond in the same way; the compact text exactly if this holds but for total size and order. Texts of objects are equal exactly if also the description of the class is. So patterns and the orders of nested structs are not shown: two structs with equal text can have different layouts.",
  "every two structs whose names contain none of the characters : } ' = newline",
  "all pairs of structs; no test looks at a text",
  ST+":StructEntry.__str__", ST+":Structure.__str__", ST+":CasadiStructure.__str__", ST+":Structured.__str__", ST+":CasadiStructEntry.primitiveString")

p("Existence and uniqueness of the nodes of the highest orders",
  "For every M there is exactly one increasing list of M nodes (Gauss) such that the quadrature formula of the tableau is exact for all polynomials of degree less than 2M, and for every M >= 1 exactly one with last node 1 (Radau) such that it is exact for degree less than 2M-1. Gauss nodes lie in (0,1), are distinct and symmetric (c[M-1-j] = 1-c[j]); Radau nodes lie in (0,1] and are distinct; the weights b are positive for both. So the order of the formula determines up to permutation what cs.collocation_points must return, and the conditions on the nodes in C74, C75, C76, C81, C87, C91, C92 can be satisfied for every order.",
  "every number of nodes, every list of real nodes",
  "all orders; tests use a few orders",
  BUT+":butcherTableuForCollocationPoints", BUT+":butcherTableuForCollocationMethod", POLY+":collocationPoints")

p("Exactly one collocation solution of contractive models, for steps of any length",
  "Let the model be contractive with respect to a positive definite quadratic form (the distance of two of its solutions with the same inputs does not grow), the nodes those of Gauss or Radau, and the grid increasing. Then two solutions of the collocation equations with the same initial state, inputs and parameter have the same states and derivatives at all interval bounds and collocation points. If the model is an ordinary differential equation with a right-hand side that is Lipschitz continuous on bounded sets (for example x' = -x^3), there is such a solution for every initial state, every input and every parameter. In both cases the lengths of the intervals and the stiffness of the model do not matter (compare C78, which needs small steps).",
  "all contractive models, all Gauss and Radau nodes, all increasing grids, all initial states, inputs and parameters",
  "all nonlinear models and all step lengths; tests solve a few problems on fixed grids",
  COL+":CollocationScheme.__init__", BUT+":butcherTableuForCollocationPoints", POLY+":collocationPoints")

p("Convergence for stiff models: error bounds with one constant for all contractive models",
  "For every list of Gauss or Radau nodes (M of them), every m and every positive definite quadratic form in m variables there is a constant C such that for EVERY model with m states that is contractive with respect to the form, every increasing grid with steps of at most H and every solution of the collocation equations: if y is a solution of the model with the same inputs and parameter whose derivative has on every interval an M-th derivative of at most B, then the states at the interval bounds differ from y at most by C*(e0 + B*(t-t0)*H^M), where e0 is the largest initial error, and those at the collocation points at most by C*(e0 + B*(t-t0)*H^M + B*H^(M+1)); in the norm of the form the factor of the initial error is 1. The outputs x, xf and X of CollocationIntegrator satisfy the same bounds. C does not depend on the model or on a Lipschitz constant of it, the steps need not be small and nothing grows exponentially with the time (compare C83 and C88, whose bounds contain exp(L*(t-t0)) and need L*H small): x' = cos(t) - l*(x - sin(t)) is solved with the same accuracy for all l >= 0.",
  "all contractive models (with or without algebraic states) with one constant, all Gauss and Radau nodes, all increasing grids, all solutions",
  "the constant is the same for infinitely many models; tests solve a few problems on fixed grids, none of them stiff",
  COL+":CollocationScheme.__init__", COL+":CollocationScheme.eq", COL+":CollocationIntegrator.__init__", BUT+":butcherTableuForCollocationPoints", POLY+":collocationPoints")

p("Equations solved up to a tolerance",
  "Root finders stop when the residual is small. (1) If differences of the residual bound the differences of the state derivative and the algebraic state (semi-explicit models with Lipschitz continuous ode and alg such that m times the differences of z is at most a times those of x plus those of alg are of this kind, with explicit constants) and L*H*alpha <= theta < 1, then two assignments with the same inputs and parameters whose collocation equations hold up to tol1 and tol2 have states that differ at most by exp(Lambda*(t-t0))*(e0 + (t-t0)*beta*G/(1-theta)*tol + n*tol) with tol = tol1+tol2, with corresponding bounds for K, X and Z. (2) With a root finder that returns a point with residuals of at most tol, the outputs x and xf of CollocationIntegrator differ from the exact solution of the model at most by the bound of C88 plus exp(Lambda*(t-t0))*(1 + (t-t0)*beta*G/(1-theta) + n)*tol. (3) For Gauss and Radau nodes there is one constant C for all ordinary differential equations contractive with respect to a given form: for steps of any length the states differ in the norm of the form at most by the initial difference plus C*(t-t0+n)*(tol1+tol2).",
  "all regular models, all contractive ordinary differential equations, all grids, all pairs of approximate solutions, all root finders with a tolerance",
  "all approximate solutions; tests see the one that the root finder returns and compare with tolerances",
  COL+":CollocationScheme.__init__", COL+":CollocationScheme.eq", COL+":CollocationIntegrator.__init__", COL+":CollocationIntegrator.integrate", BUT+":butcherTableuForCollocationPoints")

p("Root search of the integrator for contractive models, for steps of any length",
  "Let the model be contractive with respect to a positive definite form and determine the state derivative and the algebraic state as functions of the state that are Lipschitz continuous on bounded sets; let the nodes be those of Gauss or Radau and the grid increasing. Then the collocation equations have a solution for every initial state, input and parameter (models with algebraic states included; compare C95), and the system that CollocationIntegrator gives to the root finder has exactly one solution in (x, K, Z). For ordinary differential equations with residual xdot - ode there is one constant C for all models that are contractive with respect to the form such that, with a root finder that solves the equations up to tol, the outputs x and xf differ from the exact solution at most by C*(e0 + B*(t-t0)*H^M + (t-t0+n+1)*tol).",
  "all such models, all Gauss and Radau nodes, all increasing grids, all initial states, inputs and parameters, all root finders with a tolerance",
  "all models and step lengths; tests solve a few problems on fixed grids",
  COL+":CollocationScheme.__init__", COL+":CollocationScheme.eq", COL+":CollocationIntegrator.__init__", BUT+":butcherTableuForCollocationPoints", POLY+":collocationPoints")

p("Accuracy of the trajectory x_traj at all times",
  "The nodes determine a constant C such that for every scheme and every assignment the piecewise polynomial trajectory piecewisePolyX(x, K) differs from a function y with piecewise smooth derivative f on an interval of length h at most by C times the largest difference at the start of the interval and at its collocation points, plus B*h^(M+1); its derivative differs from f at most by this divided by h, and at most by C times the largest difference of K from f plus B*h^M. Consequently the trajectory that integrate() returns, evaluated at any list of times between the first and the last grid point, differs from the exact solution (a) for models of index one and short steps at most by C times the bound of C88 plus B*H^(M+1), and its derivative from the exact one by C*L times the bound plus B*H^M; (b) for contractive models, Gauss or Radau nodes and steps of any length at most by C*(e0 + B*(t-t0)*H^M + B*H^(M+1)), with one constant for all models that are contractive with respect to the form.",
  "all nodes in (0,1], all models of these classes, all grids, initial states, inputs, parameters, root finders, and all evaluation times between the first and the last grid point",
  "all models, grids and evaluation times; tests evaluate trajectories at a few times",
  COL+":CollocationScheme.piecewisePolyX", COL+":CollocationIntegrator.integrate", COL+":CollocationIntegrator.__init__", PW+":PiecewisePoly.__call__", PW+":PiecewisePoly.derivative")

p("Reading with a power index is indexing .cat with s.i",
  "For a struct without entries of type 'symm' and an object without symbols of its own, s[pi] raises exactly when s.i[pi] raises, and otherwise it has the same nesting of lists and dicts, with matrices of the same sparsity whose elements are those of s.cat at the positions in s.i[pi]; all these positions are less than s.size. Hence s[pi] depends on the elements of s.cat at these positions only.",
  "every struct without symmetric entries, every power index, also with callables that do to index matrices what they do to matrices of values, and all contents",
  "all structs, power indices and contents; tests compare a few",
  ST+":MasterGettable.__getitem__", ST+":GetterDispatcher", ST+":CasadiStructure.IMDispatcher", ST+":Structure.traverseByPowerIndex", ST+":StructEntry.traverseByPowerIndex")

p("Assignments do not read the object",
  "For every struct, power index and value there are one result (success or an exception) and one function from positions to values such that for all contents the assignment s[pi] = v gives this result and puts the values of the function at the positions where it is defined, leaving the other elements alone; the same holds for every sequence of assignments up to the first one that raises. Hence a sequence of assignments that is done again, whether it succeeded or raised, has the same result and changes nothing.",
  "every struct (also with symmetric entries), every power index, also with callables, every value, every sequence of assignments and all contents",
  "all power indices, values and contents, including assignments that raise after having written some elements",
  ST+":MasterSettable.__setitem__", ST+":SetterDispatcher", ST+":Structure.traverseByPowerIndex", ST+":StructEntry.traverseByPowerIndex", ST+":payloadUnpack")

p("Assignments to different entries do not interfere",
  "An assignment whose power index begins with a name or a set of names (possibly after callables that rearrange index matrices), whatever follows, whatever the value, and whether it succeeds or raises, changes no element of any other entry of the struct. Two such assignments for disjoint sets of names can be exchanged: each has the result that it has alone, and the contents after both do not depend on the order.",
  "every well-formed struct (grouped orders, nested structs and symmetric entries included), all such power indices, values and contents",
  "all structs, power indices and values; entries may alternate in the vector",
  ST+":MasterSettable.__setitem__", ST+":SetterDispatcher", ST+":Structure.traverseByPowerIndex", ST+":CasadiStructure.__init__")

p("The last assignment wins",
  "If the assignment s[pi] = w succeeds, then an assignment s[pi] = v before it, whether that one succeeded or raised part-way, leaves no trace: the contents and the result are those of s[pi] = w alone. Hence where s[pi] = v writes depends on the power index and not on the value: elements that a successful s[pi] = w leaves alone, whatever they are, are left alone by every s[pi] = v. (For dicts as values this is false of the code: a dict is written for its own keys only.)",
  "every well-formed struct (symmetric entries, nested structs and grouped orders included), every power index, also with callables, all contents, and all values that contain no dicts",
  "all power indices and pairs of values, including assignments that raise after having written some elements",
  ST+":MasterSettable.__setitem__", ST+":SetterDispatcher", ST+":Structure.traverseByPowerIndex", ST+":StructEntry.traverseByPowerIndex", ST+":payloadUnpack", ST+":performExtraIndex")

p("Reading and writing with the same index are inverse to each other",
  "If s[pi] reads v, then s[pi] = v succeeds and changes nothing. Conversely, if v has the nesting of lists and dicts and the sparsity patterns of what s.i[pi] reads, then s[pi] = v succeeds, writes the values of v to the positions of s.i[pi] one after another and nothing else, and afterwards s[pi] reads v, unless v holds different values for the same position. Writing is also forgetful: a value v read in any state of the vector can be written to every other state and is then read back, and s[pi] = v1 before s[pi] = v leaves no trace. The same laws hold with symmetric entries that are taken as a whole and declared with a symmetric pattern. (This needs that repetitions are selected from the first one on and without gaps, and is false of the code otherwise: lists are read in the order of the selection but written by the numbers of the repetitions, so s['a', ::-1] = s['a', ::-1] swaps repetitions and s['a', 1:] = s['a', 1:] raises.)",
  "every well-formed struct (nested structs and grouped orders included), every power index of strings, integers, slices, lists, dicts, sets and extra indices with such selections (and, if there are symmetric entries, no extra indices for them and lists of names only at the end), all contents, all values",
  "all power indices, nestings and contents; tests write and read with a handful of indices",
  ST+":MasterGettable.__getitem__", ST+":MasterSettable.__setitem__", ST+":SetterDispatcher", ST+":GetterDispatcher", ST+":Structure.traverseByPowerIndex", ST+":StructEntry.traverseByPowerIndex", ST+":payloadUnpack", ST+":performExtraIndex")

p("An assignment changes only what its index selects",
  "In a struct without symmetric entries, s[pi] = v changes no element whose position is not in s.i[pi] (pi without its callables), whether or not the assignment succeeds. Therefore it does not change what other indices with other positions read, and two assignments whose positions are disjoint can be exchanged: each has the result (or exception) that it has alone, and the contents after both do not depend on their order. (For symmetric entries this is false: s.i['P', 1, 0] is empty, and s['P', 1, 0] = 5 changes the stored element (0, 1).)",
  "every well-formed struct without symmetric entries (nested structs and grouped orders included), all power indices whose callables rearrange elements, all values (dicts with unknown keys and values of wrong shapes included), all contents",
  "all power indices, values and contents, successful or not; tests look at the assigned elements only",
  ST+":MasterSettable.__setitem__", ST+":SetterDispatcher", ST+":Structure.traverseByPowerIndex", ST+":StructEntry.traverseByPowerIndex", ST+":payloadUnpack", ST+":performExtraIndex")

p("Linear parts of a model: the transfer matrix of a step, and what happens to stiff components",
  "Let combinations y = W*x - g(u, p) of the states obey d/dt(W*x) = La*y wherever the residual vanishes (the rest of the model may be nonlinear). Let Om be the polynomial with the nodes as roots and E(c) = sum_j Om^(j)(c)*(h*La)^(M-j). At every solution of the collocation equations a step of length h satisfies E(0)*y[n+1] = E(1)*y[n], and E(0)*Y[n,j] = E(tau[j])*y[n] at the collocation points. For positive nodes there is a bound B that depends on the nodes alone: a component with the rate la < 0 satisfies h*|la|*|y[n+1] - R*y[n]| <= B*|y[n]| with R = prod(1 - 1/c), however large h*|la| is. R is 0 for Radau nodes (stiff components are damped) and (-1)^M for Gauss nodes (they persist, and oscillate if M is odd).",
  "all models, combinations W, functions g, matrices La, distinct nodes, orders, grids, inputs, parameters and solutions of the equations; stiff components: all positive nodes, all models and all rates",
  "symbolic in the matrix, the nodes and the model; tests solve a few problems on fixed grids, none of them stiff",
  COL+":CollocationScheme.__init__", COL+":CollocationScheme.eq", BUT+":butcherTableuForCollocationPoints", POLY+":collocationPoints")

p("Matrices and index[...] as extra indices",
  "For an element a of a struct that is not of type 'symm' and an integer matrix m, s[a, m] has the pattern of m (the transposed one if s[a] is a column and m a row, or the other way round) and at each position the element of s[a] with this column-major number, counted from the end if negative; structural zeros of s[a] stay zeros. s[a, m] = v with distinct numbers and a value that fits changes exactly these elements, and s[a, m] then reads v. A number out of range raises. If the (first) shapestruct of a is the struct t, index[b] stands for the matrix t.i[b]. So for a column a and a part b of t, s[a, index[b]] reads what the cast t(s[a])[b] reads and s[a, index[b]] = v does what assigning to the cast and storing it does, unless b is a row: then index[b] gives a column while the cast gives a row. Without a shapestruct, where it is a number, and if t has no such part, index[b] raises and nothing is changed.",
  "all structs, elements, integer matrices with any pattern, shapestructs and their parts, contents of the object and values",
  "quantifies over all patterns of the index matrix and over two structs at once; no test uses index[...] or a matrix as an index",
  ST+":delegation", ST+":performExtraIndex", ST+":IndexDelegater", ST+":Delegater", ST+":GetterDispatcher", ST+":SetterDispatcher")

p("Expressions and data together",
  "struct_SX(entries, data=D) (and DMStruct, MXStruct) with expressions in the entries and a column D of the right length gives the struct that it gives without data, whatever D contains; and since the struct takes the object D as its master, afterwards D holds the elements of the new struct. A D of another shape makes the constructor raise and stays as it is. If the expressions do not fit the entries, the constructor raises too, but D is partly overwritten.",
  "all lists of entries with (nested lists of) expressions, all matrices D",
  "no test passes entries and data together; the effect on the caller's matrix is only visible through a second reference to it",
  ST+":MatrixStruct.__init__", ST+":SXStruct", ST+":DMStruct", ST+":MXStruct")

p("Attributes of prefixes and views",
  "An attribute that a Prefixer does not have itself is that of the matrix it stands for: p.name is the attribute of p() for p = s.prefix[...], and of the matrix a for the views s.repeated(a), s.product(t, a), s.squared(a) and s.squared_repeated(a).",
  "all structs, prefixes, matrices and attributes",
  "the code delegates to the whole master, whatever the prefix is, while its comment says self(); no test uses an attribute of a Prefixer",
  ST+":Prefixer.__getattr__")

p("Accuracy of the trajectory of integrate when the root finder has a tolerance",
  "For a regular, solvable differential-algebraic model and small steps, a root finder that solves the equations of the integrator up to tol yields a trajectory whose distance from the exact solution at every time of interval n is at most a constant, which depends on the nodes only, times the sum of the discretisation error and of a multiple of (1 + t + n)*tol; its derivative and the algebraic states at the collocation points are as accurate. For contractive ordinary differential equations and Gauss or Radau nodes the distance is at most a constant times e0 + B*(t-t0)*H^M + B*H^(M+1) + (t-t0+n+1)*tol for steps of any length.",
  "all models with Lipschitz-invertible residual or contractive ordinary differential equations, grids, node lists without 0, inputs, tolerances, root finders with that tolerance, and times",
  "the tests compare trajectories at single time points for single models, with the default tolerance of the root finder",
  COL+":CollocationIntegrator.integrate", COL+":CollocationScheme.piecewisePolyX", COL+":CollocationIntegrator.__init__")

p("Interpolation matrix in floating point",
  "With rounded operations of relative error at most u, and reductions in any order, interpolationMatrix of a basis with distinct nodes returns exact unit vectors at the nodes, and elsewhere entries whose relative error is at most 2E/(1-E), where E is ((1-u)^-(3n+1) - 1) times the Lebesgue function at the point, if E < 1. With u = 0 it is the exact matrix.",
  "all roundings (monotone, idempotent, relative error at most u), orders of summation and multiplication, lists of distinct nodes, and points",
  "the tests compare with a tolerance at a few points of one basis; no test bounds the rounding errors near nodes, where the barycentric weights are large",
  POLY+":PolynomialBasis.interpolationMatrix", POLY+":PolynomialBasis.__init__")
p("Differentiation matrix in floating point",
  "With rounded operations the entries of D off the diagonal have a relative error of at most (1-u)^-(4n+1) - 1, the diagonal entries an error of at most (1-u)^-(5n) - 1 times the sum of the absolute values of the others, and each row sums up to zero within (1-u)^-(n-2) - 1 times that sum, however inaccurate the weights are.",
  "all roundings, orders of summation and multiplication, and lists of distinct nodes",
  "rounding errors of a matrix cannot be tested for all nodes; the tests use one set of nodes and a tolerance",
  POLY+":PolynomialBasis.__init__")
p("Evaluation of piecewise polynomials in floating point",
  "With rounded operations pp(t) selects the same interval as in exact arithmetic; the computed local coordinate has a relative error of at most (1-u)^-3 - 1, stays within [0, 1] for points of the interval and is exact at both ends; the value is that of the interval's polynomial up to explicit bounds, and exactly the stored one at the ends of intervals if 0 and 1 are nodes.",
  "all roundings, orders of summation, with or without fused multiply-add, well-formed piecewise polynomials, points and modes",
  "the tests evaluate one polynomial at a few points with a tolerance",
  PW+":PiecewisePoly.__call__", POLY+":PolynomialBasis.interpolationMatrix")
p("Discretization in floating point",
  "With rounded operations discretize(step) returns, for every interval, samples that begin with the left end, ascend, include the right end, and are at most step apart up to rounding errors, with the values of the polynomial up to rounding errors; the samples ascend from one interval to the next.",
  "all roundings, orders of summation, well-formed piecewise polynomials with floating point bounds, and steps for which the numbers of samples are floating point numbers",
  "the last sample differs from the right end for special pairs of bounds only; the tests compare with a tolerance",
  PW+":PiecewisePoly.discretize")

p("Total error of evaluated trajectories",
  "Let the coefficients of a piecewise polynomial carry errors of at most eta. With rounded operations its values differ from those of the exact one at most by Lambda*eta plus rounding errors proportional to the largest coefficient, where Lambda is the Lebesgue constant of the nodes. For the models, grids and root finders of C110 (also for contractive models and steps of any length) the computed values of the trajectory that integrate returns differ from the exact solution at most by the bound of C110 (discretisation and tolerance) plus these two terms.",
  "all roundings, orders of summation, models, grids, inputs, tolerances, errors of the coefficients, and times",
  "the exact solution and the sources of error are not separable by tests, which compare with a tolerance at a few times",
  PW+":PiecewisePoly.__call__", COL+":CollocationIntegrator.integrate", COL+":CollocationScheme.piecewisePolyX")

p("Butcher tableau and Lagrange polynomials in floating point",
  "With rounded operations the coefficients of the Lagrange polynomials that PolynomialBasis and butcherTableuForCollocationPoints compute for n distinct nodes differ from the exact ones at most by (1-u)^-(4(n-1)) - 1 times the coefficients of the product of (x + |tau_r|)/|tau_j - tau_r| over the other nodes; the entries of A and b differ from the exact ones at most by (1-u)^-(6n-1) - 1 times the integral of this product from 0 to |tau_i| and to 1. The row of A of a node 1 is equal to b, and the row of a node 0 vanishes, without any error.",
  "all roundings, orders of the additions in np.convolve, and lists of distinct nodes",
  "the errors depend on the nodes and on the order of the additions; the tests compare tableaux of a few orders with a tolerance",
  BUT+":butcherTableuForCollocationPoints", POLY+":PolynomialBasis.__init__")

p("Grids of Pdq and cheb in floating point",
  "With rounded operations Pdq(t) either raises AssertionError, exactly if the rounded points of some interval do not ascend, or returns a grid that begins every interval exactly at t[i], ascends within the intervals, ends at t[-1], and is close to the exact grid; its differentiation matrix holds the derivatives of the Lagrange polynomials of the computed points up to (1-u)^-(4n+1) - 1 off the diagonal and zeros outside the blocks. cheb(N, t0, tf) begins at t0 and ends at tf. The constructor succeeds for every ascending grid.",
  "all roundings, nodes in [0, 1] and lists of interval bounds",
  "whether a rounded end is equal to the given one depends on the last bit; the tests use intervals from 0 to small integers",
  COL+":Pdq.__init__", COL+":Pdq.tf", POLY+":cheb")

p("Collocation scheme with rounded coefficients",
  "With interval lengths, Butcher tableau, integration matrices and collocation times computed with rounding, CollocationScheme is constructed under the same conditions and with the same variables. For a regular model that is Lipschitz continuous in time, states, derivatives and algebraic states that solve its equations up to a tolerance differ from those of the exact scheme, and its states from the exact solution of the model, at most by explicit bounds: the convergence bound of C88 plus a Gronwall factor times terms proportional to the unit roundoff, the tableau errors of C116 and the tolerance. The last collocation time for a node 1 need not be the end of the interval.",
  "all roundings, models, grids, nodes in [0, 1], assignments and tolerances",
  "tests compare with loose tolerances for a few grids; nothing separates rounding, discretisation and solver errors",
  COL+":CollocationScheme.__init__", BUT+":butcherTableuForCollocationMethod")

p("Quadratures of inexact solutions and of the rounded scheme",
  "The quadratures q (grid points) and Q (collocation points) depend Lipschitz continuously on the states and algebraic states at the collocation points: for assignments with the same inputs and parameters their differences are bounded by the elapsed time times the norm of the weights times the difference of the integrands. Hence the quadratures of assignments that solve the equations of a regular model up to a tolerance, or that belong to the scheme with rounded coefficients, differ from those of the exact scheme at most by explicit bounds; and those of the rounded scheme from the exact integrals along an exact solution at most by the bound of C88 plus terms proportional to the unit roundoff, the tableau errors and the tolerance. For contractive ordinary differential equations, Gauss or Radau nodes and steps of any length the quadratures q and the output qf of the integrator differ from the exact integrals at most by a constant times (t-t0)*(Lq*(e0 + B*(T-t0)*H^M + B*H^(M+1) + (T-t0+N+1)*tol) + Bq*H^M).",
  "all models with Lipschitz continuous quadrature expression, grids, nodes in [0, 1], assignments, tolerances and roundings",
  "tests integrate one quadrature with a loose tolerance; nothing bounds the effect of the solver or of rounding",
  COL+":CollocationScheme.__init__", COL+":CollocationScheme.q", COL+":CollocationScheme.Q")

p("Flat getter with dicts and callables",
  "s.f[index] returns a list of integers. True for every index without {}, nesteddict, sets and callables; and for every index without callables the result is a list of integers l exactly if s.i[index] is a nested list of dense index matrices with the elements l. False in general: s.f[{}, rest] and s.f[{names}, rest] are dicts from the names to the values of the traversals, which are not flattened; a callable gets the result for the rest of the index before it is flattened, and vec is applied to its value (TypeError for a number).",
  "all structs, all power indices, all callables",
  "tests use s.f with names, integers and slices only",
  ST+":vec", ST+":CasadiStructure.FlatIndexDispatcher", ST+":Dispatcher.callableOuter", ST+":Structure.traverseByPowerIndex")

p("Calls and attributes that cannot succeed",
  "Python binds the arguments of a call exactly if there are not more positional arguments than parameters, every keyword names one of the remaining parameters and every remaining parameter without default gets one; otherwise TypeError. Hence a CollocationSimulator can never be constructed (order is missing in the call of CollocationScheme) and simulate can never return (SystemTrajectory() without arguments), for all arguments; the calls of CollocationIntegrator and collocationIntegrator bind every argument to the parameter of the same name. Of the properties of CollocationScheme exactly pdq raises AttributeError.",
  "all arguments, models, grids and orders; all signatures and calls",
  "the test of the simulator is disabled (inside a string literal)",
  COL+":CollocationSimulator.__init__", COL+":CollocationSimulator.simulate", COL+":CollocationScheme.pdq", COL+":collocationIntegrator")

p("Packing of collocation variables in structs",
  "The structs in collocation.py and dae_model.py pack their expressions as the numeric code assumes: struct_MX([entry(n, expr=e), ...]) with distinct names has as .cat the elements of the expressions column by column, one after the other, and s[n] is e (with a repeated name it raises); var(w) for a column w of the right size reads as entry n the matrix whose elements follow those of the entries before it. In CollocationIntegrator, var.cat equals w under the assignment used for the residual, var(w)['x'], ['K'], ['Z'] are x, K, Z under this assignment, and w0 after its three assignments has the initial point as .cat; parallel can always build its structs.",
  "all lists of named expressions, all values of the symbols, all vectors of unknowns; all integrators of valid models",
  "tests see only the results of a few integrations",
  COL+":CollocationScheme.combine", COL+":CollocationIntegrator.__init__", DAE+":parallel", ST+":MXVeccatStruct", ST+":MXStruct", ST+":VertsplitStructure.buildMap")

p("Differentiation in floating point",
  "With rounding errors, PiecewisePoly.derivative() succeeds for every well-formed object and returns one on the same intervals; its coefficients are the derivatives at the nodes of the polynomials that interpolate the data, with an error of at most gamma_(6n+2) * sum over k != j of |D[j,k]|*(|c[k]| + |c[j]|) / h. Data with errors of at most eta give coefficients with errors of at most (B*eta + 2*gamma*B*C)/h, and the values of the derivative, in both modes, differ from the exact ones at most by Lambda times this plus the rounding errors of the evaluation. Pdq.derivative(y) on a computed grid returns the derivatives at the computed points with an error bound that does not depend on the number of intervals. Without rounding the results are the exact ones. The derivative of a constant need not be exactly zero: with doubles and fused multiply-add it can be -2^-52 for the constant 5.",
  "all roundings with relative error u and all orders of the reductions, all nodes, intervals, data, grids",
  "tests compare derivatives with a tolerance on a few functions",
  PW+":PiecewisePoly.derivative", COL+":Pdq.derivative", POLY+":PolynomialBasis.__init__")

p("Interpolation of grid functions in floating point",
  "With rounding errors, Pdq.interpolator('both') and Pdq.interpolator('right') on a computed grid with ascending points succeed for every matrix with the right number of columns and every nonempty list of query points. In each interval the values differ from those of the polynomial through the data at the computed points at most by a bound relative to the sum of |x[r,k]*l_k(t)| that contains only u, the number of points per interval and the Lebesgue function, not the number of intervals or the distance of the points. At a collocation point the result is exactly the given value if this is a floating point number, also where the computed last point is not t[-1]. Without rounding the result is exact. The option 'left' raises IndexError in the last interval; wrong shapes and unknown options raise ValueError.",
  "all roundings with relative error u and all orders of the reductions, all schemes, grids, data and query points",
  "a test evaluates a few points and compares with a tolerance",
  COL+":Pdq.interpolator", COL+":_PdqInterpolator.__call__", POLY+":PolynomialBasis.interpolationMatrix")

p("Coefficients of composed polynomials in floating point",
  "With rounding errors, PolynomialBasis.compose(c) succeeds for distinct nodes and at most as many columns as nodes; the coefficients of row r differ from those of sum_j c[r,j]*l_j at most by gamma_(4(n-1)+1+cols) times those of sum_j |c[r,j]| * prod (x + |tau_k|)/|tau_j - tau_k|, and the values by Horner's rule accordingly; more columns raise IndexError. PiecewisePoly.poly(n) either returns or raises ValueError; whenever it returns, coefficients and values are those of the interpolating polynomial in the local time, with the same kind of bound, and it returns if the leading coefficients exceed their rounding errors. The claim that it returns for data of full degree is false: with doubles, two different values at two nodes can give the computed leading coefficient 0 and ValueError; conversely for the constant 1 at the nodes 0, 1/4, 1 it returns a polynomial of degree two, where exact arithmetic raises.",
  "all roundings with relative error u, all orders of the reductions, any power function with bounded relative error, all nodes, data, intervals",
  "whether an exception is raised depends on the last bit; a test sees only a few inputs",
  POLY+":PolynomialBasis.compose", PW+":PiecewisePoly.poly")

p("Integration of grid functions in floating point",
  "With rounding errors, and a linear solver whose residuals are at most gamma_b times the sums of the absolute values of the terms of each equation, whenever Pdq.integral(dy) returns, on each interval the result is the rounded sum of the value at the beginning and the values of a polynomial P that vanishes there and whose derivative has the given values up to gamma_(5*order+5+b) * sum_{k!=j} |l_k'(x_j)| (|P(x_k)| + |P(x_j)|); the result differs from the sum of the exact integrals of the polynomials that interpolate dy on the intervals at most by these residuals times the absolute integrals of the Lagrange polynomials, plus one relative rounding error per interval. It returns exactly for enough columns, if the solver succeeds for nonsingular matrices and gamma_(5*order+5) times the condition of the equations is below 1. Without rounding it is the sum of the integrals.",
  "all roundings with relative error u, all orders of the reductions, all grids the constructor accepts, all solvers with bounded residuals, all data",
  "rounding errors depend on grid and data, the solver is replaceable; a test sees one solver on a few inputs",
  COL+":Pdq.integral")

p("Barycentric and polynomial interpolator in floating point",
  "With rounding errors: barycentricInterpolator(x)(u, xq) succeeds for distinct nodes exactly for one column of u per node (otherwise ValueError); the results differ from the values of the interpolating polynomials at most by rounding errors relative to the sum of the absolute terms of the Lagrange form, and are exactly the data at a node. polynomialInterpolator(x)(u, xx), with a linear solver whose residuals are at most gamma_b times the sums of the absolute values of the terms, returns inner products of u with weights W that solve the Vandermonde equations up to gamma_(pow+b) sum_k |x_k|^i |W_k| + gamma_pow |s|^i, are bounded by the Lagrange polynomials if gamma times the condition is below 1, and the results differ from the interpolating polynomial P at most by sum_i |coefficient i of P| times these residuals plus gamma_n sum |u_k W_k|. If the errors of the powers are small in comparison to the condition, and the solver succeeds for nonsingular matrices, it succeeds exactly for one column per node. Without rounding both return the value of the interpolating polynomial.",
  "all roundings with relative error u, all orders of the reductions, all powers with bounded relative error, all solvers with bounded residuals, all nodes, data and query points",
  "rounding errors depend on nodes, data and the solver; a test sees one implementation on a few inputs",
  POLY+":barycentricInterpolator", POLY+":polynomialInterpolator")

p("Integer arrays",
  "PolynomialBasis, polynomialInterpolator and PiecewisePoly.poly give the same result for integer arrays of nodes or interval bounds as for the equal floating point numbers. (False of the code: products and powers are computed in 64-bit integers and wrap around, and an integer array cannot be divided in place. True if the products of differences of nodes, the powers of the nodes, or the powers of the interval length fit into 64 bits; in particular for up to 21 consecutive integers. For the nodes 0..21 the derivative of x^2 at 0 is above 19 instead of 0; for 131 or more consecutive integers all barycentric weights are divisions by zero; for the nodes 0..16 polynomialInterpolator does not reproduce x^16 anywhere but at 0..15; for an interval of length 10 and 20 nodes poly is wrong everywhere but at 0; for a single node and integer coefficients poly raises TypeError.)",
  "all integer nodes, interval bounds, data, query points and linear solvers",
  "tests use few nodes, and mostly floating point arrays; overflow is silent",
  POLY+":PolynomialBasis", POLY+":polynomialInterpolator", PW+":PiecewisePoly.poly")

p("Lists of names",
  "s[..., ['x', 'y'], ...] is [s[..., 'x', ...], s[..., 'y', ...]], and assigning a list [v, w] to it performs s[..., 'x', ...] = v and s[..., 'y', ...] = w. (False of the code: the traversal goes on with the struct and not with its entries. True at the end of the index for entries without repeat and without type symm, at any depth, with a value that is not a list written to all entries; s.i and s.f agree for all entries without repeat. A list with the name of a repeated entry always raises, an integer, slice or unknown name after the list always raises, and a symm entry is read as its upper triangle.)",
  "all structs, lists of entries, contents, values and further indices",
  "tests use single names; for plain entries the result is the same",
  ST+":Structure.traverseByPowerIndex", ST+":GetterDispatcher")

p("Changes of variables and of time in the collocation scheme",
  "If the solutions of one model follow from those of another by x(t) = T x'(a t + b) + g(t), q(t) = W q'(a t + b) + G(t) with matrices T, W (of any shape) and polynomials g, G of a degree up to the order, and by selecting algebraic states, inputs and parameters, then the solutions of the collocation equations of the first on a grid follow in the same way from those of the second on the transformed grid, with times, states and quadratures at the collocation points. Consequences: the equations of a model that does not depend on time are the same on a shifted grid; replacing time by a state with derivative 1 changes nothing; the equations of two models side by side are those of the two models.",
  "all pairs of models (implicit or semi-explicit, with algebraic states, inputs, parameters, quadratures), all grids, orders, nodes without repetition, all changes and all values of the variables",
  "a test has one model; the claim relates two arbitrary models",
  COL+":CollocationScheme.__init__")

p("Sensitivities",
  "If the variables of the collocation scheme depend differentiably on a parameter and solve the collocation equations of a model for all parameters near one, then the variables and their derivatives solve the collocation equations of the tangent model (the model together with its linearisation); states at the collocation points and quadratures of the tangent model are those of the model and their derivatives. Differentiation with respect to initial values, inputs or parameters and collocation can be exchanged.",
  "all models with a tangent model, all grids, orders, nodes, curves of values of the variables",
  "a test compares numbers with finite differences; the claim is an identity for all models and curves",
  COL+":CollocationScheme.__init__")

p("Differentiable dependence on the data",
  "Solutions of the collocation equations are differentiable in the initial values, inputs and parameters: if these depend differentiably on a parameter, then so do the states, derivatives, algebraic variables and quadratures of a solution, without assuming that the solution is even continuous in the parameter, and a solution of the collocation equations of the tangent model consists of the solution and its derivatives. This holds for regular models (differential-algebraic ones included) with small steps, where the collocation equations of the tangent model have a solution if they are linear in the derivatives, for contractive differential equations with Gauss or Radau nodes and steps of any length (states at the grid points), and for the outputs of the integrator with any root finder.",
  "all regular models with small steps; all contractive differential equations with any steps; all grids, orders, nodes; all root finders",
  "a test compares finite differences with numbers at a few points; existence of a derivative is not testable",
  COL+":CollocationScheme.__init__", COL+":CollocationIntegrator")

p("Symplecticity",
  "If a bilinear form of two variations of a solution does not change along the solutions of a model with fixed inputs and parameters (for a Hamiltonian model the symplectic form, for a divergence-free planar model the area), then with Gauss nodes the collocation equations preserve it exactly: the form of the derivatives of two families of solutions of the collocation equations through the same solution has the same value at all grid points, and so has the form of the derivatives of the integrator's outputs with respect to the initial state, for any root finder. With other nodes this fails: one step with the node 1 halves the area for the harmonic oscillator.",
  "all models (differential-algebraic ones included), forms, grids, orders, families of solutions; for the integrator all regular models with small steps",
  "a test could only compare a finite difference determinant with 1 for one model and one step",
  COL+":CollocationScheme.__init__", COL+":CollocationIntegrator", BUT+":butcherTableuForCollocationPoints")

p("Exact gradients by the adjoint equations",
  "An adjoint model adds to the states of a model as many adjoint states whose product with any variation of the solution changes at the rate of its quadratures times the variations of inputs and parameters (for x' = f(x,u,p,t): adjoint -J'lambda and quadratures B'lambda, C'lambda). With Gauss nodes, a solution of the collocation equations of the adjoint model gives the exact derivatives of the solutions of the collocation equations of the model: at every grid point lambda[n]'dx[n] = lambda[0]'dx[0] + sum over the intervals of the increments of the quadratures times du + q[n]'dp. So differentiation and discretisation commute. For regular models and small steps the derivatives exist, and one call of the integrator of the adjoint model gives the gradient of the integrator's final state, for any root finder. With other nodes this fails: one step with the node 1 changes the product from 1 to 4/3.",
  "all models (differential-algebraic ones included), adjoint models, grids, orders, families of solutions, both layouts of the parameters; for the integrator all regular models without parameters and small steps",
  "a test could only compare one gradient with finite differences up to a tolerance that hides the difference between the exact gradient of the discretisation and an approximation of the gradient of the solution",
  COL+":CollocationScheme.__init__", COL+":CollocationIntegrator", BUT+":butcherTableuForCollocationPoints")

p("Texts of prefixes",
  "The text of a prefix s.prefix[...] determines its indices (names, numbers, slices, lists, Ellipsis, {}, sets, index[...] and indexf[...], if names contain no quotes), the description of the object and the text of its struct, hence by C93 its entries up to patterns and the orders of nested structs; conversely these determine the text. The text of s.prefix determines description and struct and is never the text of a prefix; the texts of index[...] and indexf[...] determine which of the two it is and the indices. The text does not show to what a prefix casts: the view s.repeated(a) and the prefix with the same object and indices have the same text, but the first casts to a and the second to a list.",
  "all prefixes, indices and structs; for the converse of C93 well-formed structs with names without quotes, braces and commas",
  "a test compares the text of one prefix with a string; that no two different prefixes share a text concerns all pairs",
  ST+":Prefixer.__str__", ST+":PrefixConstructor.__str__", ST+":Delegater.__str__", ST+":Prefixer.cast")

p("Optimality conditions of discretised optimal control problems",
  "With Gauss nodes and small steps, the derivative of a cost Phi(x_N, u) along solutions of the collocation equations with fixed initial states and parameters is, for the input k of the interval m, the increment of the k-th quadrature of the adjoint model over the interval plus the partial derivative of the cost, where the final adjoint state is the gradient of the cost. For inputs that minimise the cost over a convex set, this gradient satisfies the variational inequality; for inputs between bounds (possibly infinite) it is not negative below the upper bound and not positive above the lower bound, so 0 between the bounds. For explicit models x' = f(x,u,p,t) the collocation equations of the adjoint model always have a solution with a given final adjoint state if the steps are small, so every minimiser satisfies the discrete minimum principle: optimising the discretised problem and discretising the optimality conditions give the same equations.",
  "all models (for existence: explicit ones) that are regular, all grids with small steps, orders, both layouts of the parameters, differentiable costs, convex sets and bounds",
  "a test can check the conditions for one numerical solution of one problem up to a tolerance",
  COL+":CollocationScheme.__init__", BUT+":butcherTableuForCollocationPoints")

p("Symmetric nodes",
  "For nodes that are symmetric in [0,1] the order of the weights is even: if they integrate all polynomials of degree below an odd number k exactly, then also those of degree k. An odd number M of symmetric nodes therefore has order at least M+1 (C91, C92). If combinations y of the states obey linear differential equations with a matrix La, and B*La + La'*B = 0, then every step with symmetric nodes preserves y'By (if the step determines y); the rest of the model may be nonlinear. So the trapezoidal rule keeps the energy of an oscillator, although it is not symplectic (C75). Symmetry is necessary for time reversal (C76): for x' = t the reversed variables solve the equations on the reversed grid only for symmetric nodes.",
  "all symmetric nodes, linear parts of all models, grids, forms; for the last part all nodes",
  "tests use one set of nodes; evenness and conservation are statements about all of them",
  BUT+":butcherTableuForCollocationPoints", COL+":CollocationScheme.__init__")

p("The integrator as a flow",
  "For models of index one and small steps (forwards or backwards in time) the equations of the integrator have exactly one root, so its outputs depend neither on the root finder nor on the guess of the algebraic states. Integrating over a grid gives the same as integrating over its first m intervals and then, from the final state, over the others with the remaining inputs: the columns of x, K, X and Z are those of the two parts and the quadratures add up. With symmetric nodes, integrating back from the final state over the reversed grid with the inputs in reverse order returns to the initial state through the same states, and the quadratures change sign. With other nodes it does not: the node 1 takes x' = -x from 1 in half a unit of time forwards and backwards to 4/3. For contractive models with Gauss or Radau nodes the result is determined, and the parts fit together, for steps of any length.",
  "all models of index one (for existence of the root: solvable ones) and grids with small steps of either sign, or contractive models and increasing grids, orders, inputs, parameters, root finders, splittings; symmetric nodes for the way back",
  "tests compare a few runs up to the tolerance of the root finder",
  COL+":CollocationIntegrator", COL+":CollocationScheme.__init__")

p("Identities of symbols and repeat_param",
  "For the same values of the variables all attributes of a scheme (tc, X, U, the collocation and continuity equations, quad, q, Q) have the same values, whatever identities the created symbols have and whether or not repeat_param is set. The equations with a parameter column for every collocation point have the same solutions as those with one column: every solution of one is a solution of the other with the same values, because the additional equations make the columns equal. There are np*(N*M-1) additional unknowns and as many additional equations.",
  "all models, grids, orders, nodes and values, both layouts",
  "tests construct the scheme once and compare a few numbers",
  COL+":CollocationScheme.__init__")

p("Optimal controls computed with the collocation scheme",
  "A decision (inputs on the intervals, parameters, initial states) is chosen to minimise a cost under constraints, both Lipschitz continuous (constant Lambda) in the states at the grid points and the final quadratures, with the collocation equations in place of the model. With an explicit error E, of the order of the steps to the power of the number of nodes: the cost of the computed solution and the cost of the exact solution with the computed decision differ at most by Lambda*E; this exact solution violates the constraints at most by Lambda*E; no decision whose exact solution satisfies the constraints with the margin Lambda*E is better by more than 2*Lambda*E. This holds for models of index one and small steps, and for contractive models with Gauss or Radau nodes for all steps, with one constant however stiff the model is. For regular models and small steps, and for contractive ordinary differential equations that are Lipschitz continuous in the data with steps of any length, the solutions of the collocation equations (states and quadratures, with small steps also derivatives and algebraic states) depend continuously on the decision, and a problem with decisions from a compact set that has a feasible solution has an optimal one. For regular models with small steps and contractive ordinary differential equations with any steps the bounds hold also for the result of a solver that solves the equations up to tol, violates the constraints and misses the least cost at most by eta, with E increased by a constant times (T + N)*tol and eta added.",
  "all models of index one with small steps or contractive models with any steps, all grids, orders, sets of decisions, Lipschitz continuous costs and any number of constraints",
  "a test can solve one problem and compare with one known solution up to a tolerance",
  COL+":CollocationScheme.__init__", BUT+":butcherTableuForCollocationPoints")

p("Dependence of solutions on inputs and parameters",
  "For models of index one whose equations are Lipschitz continuous also in the inputs and parameters, and small steps: if two assignments satisfy the equations of the scheme up to tolerances, then their states at a grid point differ at most by exp(Lambda*(t-t0)) times the difference of the initial states plus a constant times the integral up to that grid point of the differences of inputs and parameters, plus tolerances. So changes of the inputs in later intervals have no influence, and short changes have little. Derivatives, states and algebraic states at the collocation points and quadratures obey corresponding bounds, and so do the outputs of two calls of the integrator. For ordinary differential equations that are contractive with respect to a positive definite form, and Gauss or Radau nodes, there is one constant for all of them and for steps of any length, for the states at grid and collocation points and for Lipschitz continuous quadratures: nothing grows exponentially, and Lipschitz constants in the states do not matter.",
  "all models of index one with Lipschitz continuous equations and grids with small steps, or contractive ordinary differential equations and all increasing grids; orders, nodes, inputs, parameters, tolerances, both layouts of the parameters",
  "tests compare a few inputs; the bound holds for all of them at the same time",
  COL+":CollocationScheme.__init__", COL+":CollocationIntegrator")

p("Writing to unpickled structs and prefixes",
  "An unpickled DM struct can be written to like the original one: every sequence of assignments, with any power indices and values, has the same outcomes and leaves the same data. This holds for structs without entries of type 'symm'; for all structs, assignments that succeed on the unpickled object succeed with the same result on the original one. It is false for entries of type 'symm': __getstate__ of the entry omits originalsparsity, so after pickling every assignment of a matrix that is not a scalar raises. An unpickled Prefixer has the same prefix and castmaster, reads, casts and delegates attributes the same, and writes like its object.",
  "all well-formed structs, data, other objects in the same pickle, sequences of assignments, power indices, values, prefixes",
  "a test unpickles one struct and reads it; the loss of originalsparsity shows only in later writes to one type of entry",
  ST+":DMStruct.__getstate__", ST+":CasadiStructEntry.__getstate__", ST+":SetterDispatcher.__call__", ST+":Prefixer.__getstate__")

p("Expressions for symmetric entries",
  "struct_SX and struct_MX accept entry(k,expr=e,type='symm') for a symmetric matrix e (or nested lists of them), and s[k] reads e. True of struct_SX, next to any other entries; of a matrix that is not symmetric the upper triangle counts. False of struct_MX: an assignment compares the pattern of the expression with the stored upper triangle, so the constructor succeeds exactly if all expressions of type 'symm' are upper triangular, an assignment exactly if the expression has the pattern of the upper triangle (otherwise it raises and changes nothing), s[k] then reads the symmetric matrix with this upper triangle, and s[k] = s[k] raises unless the pattern is diagonal.",
  "all lists of entries with expressions (nested lists of any depth), orders, square patterns, values, and all reachable states",
  "a test of symm entries uses one class of struct; the combination with struct_MX needs its own reading of two checks",
  ST+":MXVeccatStruct.__setitem__", ST+":MXVeccatStruct.__init__", ST+":MatrixStruct.__init__", ST+":CasadiStructEntry.__init__", ST+":SetterDispatcher.__call__")

p("Copying between struct_MX objects",
  "s[..., rest] = L and s[{}, rest] = d on a struct_MX, at any nested struct, perform the assignments to the single entries one after another up to the first exception. If all expressions of a struct_MX s are assigned, s[...] and s[{}] can be read, and assigning the result to any struct_MX t of the same layout, complete or not, makes t equal to s in every stored expression; t[name] = s[name] copies the expressions of this entry and leaves the others. True of entries that are not of type 'symm'. False in general: if an entry of type 'symm' has an element above the diagonal, s[...] can be read, but assigning the result raises for every t, also for s itself (see C143); in all other cases the copy succeeds.",
  "all well-formed structs with repeats and nested structs, reachable states of both objects, lists and dicts of payloads",
  "tests assign single entries of struct_MX; the copy has to hold for every layout and state",
  ST+":MXVeccatStruct.__setitem__", ST+":MXVeccatStruct.master", ST+":Structure.traverseByPowerIndex")

p("Saving structs to files",
  "struct_load(filename) after s.save(filename) returns an object with the same layout and data as s. False of the code: save and struct_load use the name file, which the module does not define; unless CasADi or the interpreter provide it (Python 3 does not), every call of either raises NameError, nothing is written and no state changes; classes other than CasadiStructure and DMStruct have no save. With file as in Python 2 the claim holds after any sequence of saves, also for objects that share structs (which one pickle of a list mixes up, C56), and saving under other names does not matter.",
  "all valid structs and DM structs, names of files, sequences of saves, contents of other files, earlier pickling, names exported by CasADi",
  "no test saves anything; a test with one struct and one file cannot show what other saves and shared structs do",
  ST+":CasadiStructure.save", ST+":DMStruct.save", ST+":struct_load")

with open(os.path.join(os.path.dirname(__file__), "..", "properties.jsonl"), "w") as f:
    for o in P: f.write(json.dumps(o) + "\n")
print(len(P))
