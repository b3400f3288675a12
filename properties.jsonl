{"id": "C01", "title": "Lagrange basis is cardinal", "statement": "For pairwise distinct nodes, PolynomialBasis(tau).poly holds exactly len(tau) polynomials, each of degree len(tau)-1 = order, and poly[j] evaluates to 1 at tau[j] and to 0 at every other node.", "quantifier": "every non-empty list of pairwise distinct nodes (any length, any order, any values) and every pair of node indices", "why_tests_cant": "tests use a few fixed node sets; the claim is about every node set of every length", "anchors": ["casadi_extras/collocation/polynomial.py:PolynomialBasis.__init__"]}
{"id": "C02", "title": "interpolationMatrix reproduces polynomials", "statement": "PolynomialBasis(tau).interpolationMatrix(t) has one row per query point and one column per node, its entry (i,j) is poly[j](t[i]), whether t[i] coincides with a node or not and whether it lies inside or outside the node range; hence multiplying node values of any polynomial of degree <= order by it returns the polynomial's values at t. Every row sums to one.", "quantifier": "every list of distinct nodes, every non-empty list of query points, every polynomial of degree at most the order", "why_tests_cant": "the code has two branches (at a node / between nodes) that must agree for every real query point", "anchors": ["casadi_extras/collocation/polynomial.py:PolynomialBasis.interpolationMatrix"]}
{"id": "C03", "title": "Differentiation matrix is exact", "statement": "PolynomialBasis(tau).D maps the node values of every polynomial of degree <= order to the node values of its derivative; D[j,k] = poly[k]'(tau[j]); every row of D sums to zero.", "quantifier": "every list of distinct nodes and every polynomial of degree at most the order", "why_tests_cant": "tests check D for one set of four nodes; the barycentric formula with its special diagonal must be right for every n", "anchors": ["casadi_extras/collocation/polynomial.py:PolynomialBasis.__init__"]}
{"id": "C04", "title": "compose returns the polynomial with the given coordinates", "statement": "PolynomialBasis(tau).compose(c) returns one polynomial per row of c; the i-th is sum_j c[i,j]*poly[j], so when c has one column per node it takes the value c[i,k] at tau[k] and is the only polynomial of degree <= order that does.", "quantifier": "every list of distinct nodes and every coefficient matrix", "why_tests_cant": "holds for every matrix size and every value, including rows whose leading coefficients cancel", "anchors": ["casadi_extras/collocation/polynomial.py:PolynomialBasis.compose"]}
{"id": "C05", "title": "The two interpolators agree", "statement": "polynomialInterpolator(x)(u, xq) and barycentricInterpolator(x)(u, xq) return the same values, namely those of the unique polynomial of degree < len(x) through the points (x[k], u[:,k]).", "quantifier": "every non-empty list of distinct nodes, every data matrix with one column per node and every non-empty list of query points", "why_tests_cant": "equality of two algorithms (Vandermonde solve, barycentric formula) on all inputs", "anchors": ["casadi_extras/collocation/polynomial.py:polynomialInterpolator", "casadi_extras/collocation/polynomial.py:barycentricInterpolator"]}
{"id": "C06", "title": "Chebyshev points form a proper grid on [0,1]", "statement": "collocationPoints(order,'chebyshev') returns order+1 points; for order>=1 the first is 0, the last is 1, they are strictly ascending and symmetric about 1/2. For the other schemes the result is 0 followed by the scheme's points.", "quantifier": "every order", "why_tests_cant": "statement about the cosine at every order, not at sampled orders", "anchors": ["casadi_extras/collocation/polynomial.py:collocationPoints"]}
{"id": "C07", "title": "cheb grid and differentiation matrix", "statement": "cheb(N,t0,tf) returns (D,t) with len(t)=N+1, t[0]==t0, t[-1]==tf (as documented), and D maps values at t of every polynomial of degree <= N to the values at t of its derivative, for t0<tf and for t0>tf.", "quantifier": "every N>=1, all distinct t0, tf and every polynomial of degree <= N (N=0 is the documented claim's exception)", "why_tests_cant": "tests tabulate N<=3 and one smooth function at N=20", "anchors": ["casadi_extras/collocation/polynomial.py:cheb"]}
{"id": "C08", "title": "Butcher tableau of a collocation method integrates polynomials exactly", "statement": "For tableau = butcherTableuForCollocationPoints(tau) and every polynomial p of degree < len(tau): (A p(c))_i = integral of p over [0,c_i] and b.p(c) = integral of p over [0,1]; A is square of size len(tau), c is tau.", "quantifier": "every list of distinct nodes and every polynomial of degree < number of nodes", "why_tests_cant": "tests sample random polynomials for 1..4 Legendre nodes", "anchors": ["casadi_extras/collocation/butcher.py:butcherTableuForCollocationPoints"]}
{"id": "C09", "title": "Tableau consistency", "statement": "In such a tableau every row of A sums to the node c_i, b sums to 1, and if the last node is 1 then b is the last row of A (stiff accuracy, as for Radau nodes).", "quantifier": "every non-empty list of distinct nodes", "why_tests_cant": "must hold for every node set", "anchors": ["casadi_extras/collocation/butcher.py:butcherTableuForCollocationPoints"]}
{"id": "C10", "title": "Quadrature order of the weights", "statement": "If the node polynomial prod (X - c_i) integrates to zero over [0,1] against every polynomial of degree < m, then b integrates every polynomial of degree < len(tau)+m exactly; and the converse holds as well.", "quantifier": "every list of distinct nodes, every m and every polynomial of degree < s+m", "why_tests_cant": "superconvergence is a statement about all polynomials", "anchors": ["casadi_extras/collocation/butcher.py:butcherTableuForCollocationPoints"]}
{"id": "C11", "title": "ButcherTableau constructor accepts exactly consistent shapes", "statement": "ButcherTableau(A,b,c) succeeds iff A is square and b, c are vectors of A's size, and then returns exactly the arrays supplied.", "quantifier": "every combination of array shapes", "why_tests_cant": "shape space is unbounded", "anchors": ["casadi_extras/collocation/butcher.py:ButcherTableau"]}
{"id": "C12", "title": "PiecewisePoly selects the right interval", "statement": "Evaluating a PiecewisePoly at t uses, for continuity='right', the interval i with t_i <= t < t_{i+1}; for 'left', the one with t_i < t <= t_{i+1}; below the first bound the first interval and beyond the last bound the last interval are extrapolated. At an interior bound the two modes return the right-hand and the left-hand polynomial. Any other mode raises ValueError.", "quantifier": "every strictly ascending list of at least two bounds, every query point and every coefficient data", "why_tests_cant": "boundary cases on every grid", "anchors": ["casadi_extras/collocation/piecewise_poly.py:PiecewisePoly.__call__"]}
{"id": "C13", "title": "PiecewisePoly reproduces its data", "statement": "At the point t_n + (t_{n+1}-t_n)*tau_j inside interval n the value of the PiecewisePoly is column j of coefficients[n]; on interval n the value is a polynomial in t of degree <= order.", "quantifier": "every grid, basis, coefficient matrices, interval and node lying in the interval", "why_tests_cant": "for every grid and basis", "anchors": ["casadi_extras/collocation/piecewise_poly.py:PiecewisePoly.__call__"]}
{"id": "C14", "title": "PiecewisePoly.derivative is the derivative", "statement": "pp.derivative() is a PiecewisePoly on the same intervals whose value on each interval is the derivative with respect to t of the polynomial that pp follows on this interval.", "quantifier": "every grid, basis with distinct nodes, coefficients, interval and point", "why_tests_cant": "no test covers it; chain-rule factor must be right on every interval", "anchors": ["casadi_extras/collocation/piecewise_poly.py:PiecewisePoly.derivative"]}
{"id": "C15", "title": "PiecewisePoly.poly returns the local polynomial", "statement": "pp.poly(n) returns polynomials p with p[i](t) = pp(intervals[n]+t)[i,:] for t in the interval, for every coefficient data. Interval numbers count from the end when negative, and numbers outside -N..N-1 raise IndexError.", "quantifier": "every grid, basis, coefficient matrix, interval n and t with intervals[n]+t in the n-th interval", "why_tests_cant": "the test uses random (hence full degree) data only; data whose interpolant has lower degree behave differently", "anchors": ["casadi_extras/collocation/piecewise_poly.py:PiecewisePoly.poly", "casadi_extras/collocation/polynomial.py:PolynomialBasis.compose"]}
{"id": "C16", "title": "PiecewisePoly.discretize samples finely enough and includes all interval ends", "statement": "pp.discretize(step) returns x and y such that x is ascending, starts at the first and ends at the last bound, contains both ends of every interval, consecutive points are never more than step apart, x has one column of y per point, and y is the value of the interval polynomial at x.", "quantifier": "every strictly ascending grid, every step > 0, every coefficient data", "why_tests_cant": "rounding-up logic for every ratio of step and interval length", "anchors": ["casadi_extras/collocation/piecewise_poly.py:PiecewisePoly.discretize"]}
{"id": "C17", "title": "Pdq grid", "statement": "Pdq(t,order) with N intervals and order>=1 succeeds iff N>=1 and t is strictly ascending; then collocationPoints has N*order+1 elements, is strictly ascending, contains t[k] at position k*order for every k<N, and for schemes whose last point is 1 also t[N] at position N*order, so t0==t[0], tf==t[-1], intervalLength()==t[-1]-t[0].", "quantifier": "every grid and order, every scheme of ascending points starting at 0", "why_tests_cant": "for all N and order", "anchors": ["casadi_extras/collocation/collocation.py:Pdq.__init__", "casadi_extras/collocation/collocation.py:Pdq.t0", "casadi_extras/collocation/collocation.py:Pdq.tf", "casadi_extras/collocation/collocation.py:Pdq.intervalLength"]}
{"id": "C18", "title": "Pdq.derivative is exact on piecewise polynomials", "statement": "If y holds the values at collocationPoints of a continuous function that is a polynomial of degree <= order on each interval, Pdq.derivative(y) holds, at every collocation point but the last, the derivative of the piece to the right of this point.", "quantifier": "every grid, order, scheme and every continuous piecewise polynomial", "why_tests_cant": "Pdq tests are disabled; the property depends on the scheme (it fails for Legendre points with several intervals)", "anchors": ["casadi_extras/collocation/collocation.py:Pdq.derivative", "casadi_extras/collocation/collocation.py:Pdq.__init__"]}
{"id": "C19", "title": "Pdq.integral inverts Pdq.derivative", "statement": "y = Pdq.integral(dy) returns values at all collocation points but the first such that, with a zero prepended, Pdq.derivative gives back dy; conversely integral(derivative(y)) = y[:,1:] - y[:,0].", "quantifier": "every grid, order, scheme and every matrix of derivative values", "why_tests_cant": "solvability of the linear systems and accumulation over intervals for all N", "anchors": ["casadi_extras/collocation/collocation.py:Pdq.integral"]}
{"id": "C20", "title": "Pdq.expandInput holds the input constant on each interval", "statement": "Pdq.expandInput(u) has order columns per interval and column k*order+j is u[:,k]; it raises unless u has one column per interval.", "quantifier": "every grid, order and input matrix", "why_tests_cant": "for all N, order; the only test is disabled and expects order+1 columns per interval", "anchors": ["casadi_extras/collocation/collocation.py:Pdq.expandInput"]}
{"id": "C21", "title": "Pdq interpolators reproduce the data", "statement": "The function Pdq.interpolator('both') evaluated at any collocation point returns the given value at that point, is on each interval the polynomial through the interval's points and is continuous at interval bounds; interpolator('right') evaluated at any collocation point but the last returns the given value and jumps at bounds to the right-hand data. Queries outside the grid extrapolate the first or last piece. A wrong number of data columns raises ValueError.", "quantifier": "every grid, order, data matrix and query point", "why_tests_cant": "interval lookup at bounds for all grids", "anchors": ["casadi_extras/collocation/collocation.py:_PdqInterpolator", "casadi_extras/collocation/collocation.py:Pdq.interpolator"]}
{"id": "C22", "title": "Pdq.interpolator('left') is usable", "statement": "Pdq.interpolator('left') with one value per collocation point but the first returns, at every collocation point but the first, the given value.", "quantifier": "every grid, order, data matrix", "why_tests_cant": "no test uses this mode", "anchors": ["casadi_extras/collocation/collocation.py:_PdqInterpolator.__call__"]}
{"id": "C23", "title": "SystemTrajectory reproduces its samples", "statement": "SystemTrajectory(x,z,u,pdq) is accepted iff x has one column per collocation point and z,u one fewer; state, algState and input return the supplied columns at the corresponding collocation points; time is the grid given to pdq.", "quantifier": "every grid, order and data matrices", "why_tests_cant": "for all grids, tests use order 1 and one grid", "anchors": ["casadi_extras/system_trajectory.py:SystemTrajectory"]}
{"id": "C24", "title": "Collocation scheme integrates the state consistently", "statement": "In CollocationScheme, for any values of x and K, the state X at collocation points and the extrapolated end states are those of the polynomial that starts at x[:,n] at t[n] and has derivative K at the collocation points of interval n: X equals this polynomial at tc and the end state equals it at t[n+1].", "quantifier": "every DAE, grid, number of points, distinct nodes, and values of x, K", "why_tests_cant": "index arithmetic of the Kronecker products for all N, M", "anchors": ["casadi_extras/collocation/collocation.py:CollocationScheme.__init__"]}
{"id": "C25", "title": "Collocation equations mean what they should", "statement": "scheme.eq evaluates to zero iff (a) the DAE residual is zero at every collocation point, evaluated with that point's K, X, Z, the interval's input, the parameter, the time tc and tdp_fun(tc); (b) the end state of every interval equals the next x; (c) with repeat_param all parameter columns are equal. It has exactly (nx+nz)*N*M + nx*N (+ np*(N*M-1) with repeat_param) components.", "quantifier": "every DAE, grid, method and values of all variables", "why_tests_cant": "equivalence over all variable values and all sizes", "anchors": ["casadi_extras/collocation/collocation.py:CollocationScheme.__init__", "casadi_extras/collocation/collocation.py:CollocationScheme.eq"]}
{"id": "C26", "title": "Collocation points and inputs per interval", "statement": "scheme.tc has N*M entries, entry n*M+j is t[n]+(t[n+1]-t[n])*c[j]; scheme.U has N*M columns and column n*M+j is u[:,n]; numTotalCollocationPoints is N*M.", "quantifier": "every grid and method", "why_tests_cant": "for all N, M", "anchors": ["casadi_extras/collocation/collocation.py:CollocationScheme.tc", "casadi_extras/collocation/collocation.py:CollocationScheme.U"]}
{"id": "C27", "title": "Quadrature state", "statement": "scheme.q has N+1 columns, starts at 0 and its increment over interval n is the integral over the interval of the polynomial through the quad values at the collocation points; scheme.Q at a collocation point is q[:,n] plus the integral of this polynomial from t[n] to that point.", "quantifier": "every DAE, grid, nodes and values of the variables", "why_tests_cant": "accumulation over all intervals", "anchors": ["casadi_extras/collocation/collocation.py:CollocationScheme.__init__"]}
{"id": "C28", "title": "Integrator solves a square system", "statement": "The equation system that collocationIntegrator hands to the rootfinder (collocation equations plus initial condition) has exactly as many equations as unknowns (x,K,Z).", "quantifier": "every well-formed DAE, grid and order", "why_tests_cant": "size identity for all dimensions", "anchors": ["casadi_extras/collocation/collocation.py:CollocationIntegrator.__init__"]}
{"id": "C29", "title": "Collocation is exact on polynomial solutions", "statement": "If the DAE has a solution whose state is a polynomial of degree <= M on the time span (M collocation points per interval), the corresponding values of x, K, Z satisfy scheme.eq == 0, and X, q are the exact state and (for quad of degree < M along the solution) the exact integral.", "quantifier": "every DAE and every polynomial solution, every grid", "why_tests_cant": "quantifies over all DAEs and solutions", "anchors": ["casadi_extras/collocation/collocation.py:CollocationScheme.__init__", "casadi_extras/collocation/collocation.py:CollocationIntegrator"]}
{"id": "C30", "title": "piecewisePolyX is the collocation polynomial", "statement": "scheme.piecewisePolyX(x,K) takes the value x[:,n] at t[n], X at the collocation points, has derivative K at the collocation points, and tends to the extrapolated end state at t[n+1], so it is continuous when the continuity equations hold. Requires collocation nodes different from 0.", "quantifier": "every grid, node set not containing 0, values x, K", "why_tests_cant": "for all sizes and values", "anchors": ["casadi_extras/collocation/collocation.py:CollocationScheme.piecewisePolyX"]}
{"id": "C31", "title": "Integrator outputs are mutually consistent", "statement": "If the rootfinder returns a root, collocationIntegrator's outputs satisfy: x[:,0]==x0, xf==x[:,1:], X and the end states follow from x and K, the DAE residuals vanish at all collocation points, qf is the last quadrature value, and zf is NaN of size nz.", "quantifier": "every DAE, grid, inputs, parameters and every root", "why_tests_cant": "for every root, not one sample", "anchors": ["casadi_extras/collocation/collocation.py:CollocationIntegrator.__init__"]}
{"id": "C32", "title": "SemiExplicitDae accepts exactly well-formed models", "statement": "SemiExplicitDae(**kw) raises KeyError if x or ode is missing and ValueError if x, z, u, ode or alg is not a column, if x, z, u, p, t or tdp is not purely symbolic, if t is not scalar, if ode has not as many elements as x, or a supplied alg not as many as z; otherwise it succeeds, and omitted parts are empty (t a fresh scalar).", "quantifier": "every combination of keyword arguments", "why_tests_cant": "combinatorial space of arguments", "anchors": ["casadi_extras/dae_model.py:Dae.__init__", "casadi_extras/dae_model.py:SemiExplicitDae.__init__"]}
{"id": "C33", "title": "makeImplicit preserves the model", "statement": "For a SemiExplicitDae, makeImplicit() returns an ImplicitDae with the same x,z,u,p,t,quad,tdp, whose residual is zero at (xdot,x,z,u,p,t,tdp) iff xdot = ode and alg = 0 there; nx+nz residuals. On an ImplicitDae makeImplicit is the identity.", "quantifier": "every accepted SemiExplicitDae and every value of all variables", "why_tests_cant": "equivalence over all values; succeeds for every accepted model is false if alg is omitted while z is not empty", "anchors": ["casadi_extras/dae_model.py:SemiExplicitDae.makeImplicit", "casadi_extras/dae_model.py:ImplicitDae"]}
{"id": "C34", "title": "parallel connects models", "statement": "parallel(models) returns a DAE model whose x,z,u,p,quad are the stacked ones of the models (dimensions add up) and whose right-hand sides ode and alg are the stacked right-hand sides.", "quantifier": "every list of semi-explicit models", "why_tests_cant": "for every list; also the result must be usable as a model", "anchors": ["casadi_extras/dae_model.py:parallel"]}
{"id": "C35", "title": "Inequality shape invariant", "statement": "Inequality(expr,lb,ub,nominal) succeeds iff every supplied lb, ub, nominal has the shape of expr; then lb and ub have that shape, and omitted bounds are -inf and +inf everywhere, i.e. impose nothing.", "quantifier": "every expression shape and every combination of supplied or omitted arguments", "why_tests_cant": "all shapes", "anchors": ["casadi_extras/inequality.py:Inequality.__new__", "casadi_extras/inequality.py:BoundedVariable.__new__"]}
{"id": "C36", "title": "vertcat of inequalities is their conjunction", "statement": "For inequalities of column shape with nominal values, vertcat(list) and vertcat(dict) return an inequality with the sum of the element counts that is satisfied by a value iff every part is satisfied by its part of the value; lower, upper and nominal values stay aligned with their expressions (for a dict: i.lb[k] is the lb of part k).", "quantifier": "every list or dict of inequalities (any number, any sizes) and every assignment of values", "why_tests_cant": "alignment for every number of parts", "anchors": ["casadi_extras/inequality.py:vertcat"]}
{"id": "C37", "title": "vertcat needs nominal values", "statement": "vertcat raises if any of the inequalities was created without a nominal value although such inequalities are otherwise valid.", "quantifier": "every non-empty list or dict of inequalities at least one of which has no nominal", "why_tests_cant": "no test covers it", "anchors": ["casadi_extras/inequality.py:vertcat", "casadi_extras/inequality.py:Inequality.__new__"]}
{"id": "C38", "title": "Struct layout is a partition", "statement": "In a struct whose order names each entry exactly once, every position of .cat belongs to exactly one element of exactly one primitive entry: the index sets s.i[...] / s.f[...] of distinct canonical indices are disjoint and together are 0..size-1, each nonzero of each primitive once.", "quantifier": "every struct (any nesting, repeats, shapes, grouping)", "why_tests_cant": "quantifies over all struct definitions", "anchors": ["casadi_extras/structure3.py:CasadiStructure.__init__", "casadi_extras/structure3.py:Structure.traverseCanonicalIndex"]}
{"id": "C39", "title": "Struct size", "statement": "size is the sum over entries of (product of repeat counts) * (number of nonzeros of the shape, or size of the nested struct).", "quantifier": "every struct whose order names each entry exactly once", "why_tests_cant": "all nestings", "anchors": ["casadi_extras/structure3.py:CasadiStructure.__init__"]}
{"id": "C40", "title": "Order of .cat", "statement": "Without grouping, .cat holds the entries one after another in order of definition (or of the order argument), repeats in row-major order of the repeat indices, each matrix column by column; nested structs are laid out contiguously with their own layout, so the block of a nested struct is that struct's .cat.", "quantifier": "every struct without grouping", "why_tests_cant": "all nestings", "anchors": ["casadi_extras/structure3.py:CasadiStructure.__init__", "casadi_extras/structure3.py:StructEntry.traverseCanonicalIndex", "casadi_extras/structure3.py:listindices"]}
{"id": "C41", "title": "Grouped entries are interleaved round-robin", "statement": "A tuple of entries in the definition is laid out round-robin: first repeat of each, then second repeat of each, and so on, entries with fewer repeats dropping out; no element is lost or duplicated.", "quantifier": "every group of entries with any repeat counts", "why_tests_cant": "all lengths", "anchors": ["casadi_extras/structure3.py:intersperse", "casadi_extras/structure3.py:Structure.traverseCanonicalIndex"]}
{"id": "C42", "title": "Flat index lookup round trip", "statement": "getCanonicalIndex(i) raises unless 0<=i<size; otherwise s.f[s.getCanonicalIndex(i)] == [i] (extraMode 1 or 2).", "quantifier": "every struct and every integer i", "why_tests_cant": "all structs; true only for dense shapes (mode 1) and symmetric positions (mode 2)", "anchors": ["casadi_extras/structure3.py:CasadiStructure.getCanonicalIndex"]}
{"id": "C43", "title": "Struct write then read", "statement": "For a numeric (DM) struct, after s[idx]=v with v of the entry's shape (or scalar), s[idx] reads v (scalar broadcast), whatever the history of writes before; .cat changes only at the positions of idx and every other entry reads as before.", "quantifier": "every struct, canonical index, value and previous content", "why_tests_cant": "all structs, all histories", "anchors": ["casadi_extras/structure3.py:SetterDispatcher", "casadi_extras/structure3.py:GetterDispatcher", "casadi_extras/structure3.py:MasterSettable.__setitem__"]}
{"id": "C44", "title": "Shape mismatch is rejected", "statement": "Writing a matrix whose shape is neither that of the entry, nor scalar, nor (for vectors) its transpose raises and leaves .cat unchanged.", "quantifier": "every struct, entry and value shape", "why_tests_cant": "all shapes", "anchors": ["casadi_extras/structure3.py:SetterDispatcher"]}
{"id": "C45", "title": "Negative and sliced repeat indices", "statement": "s['x',-k] is s['x',n-k] for 1<=k<=n; s['x',a:b:c] is the list of s['x',i] over Python's slice of range(n); s['x'] is the (nested) list over all repeats; an out-of-range integer raises.", "quantifier": "every repeat count, every integer and slice, every nesting of repeats", "why_tests_cant": "all integers and slices", "anchors": ["casadi_extras/structure3.py:StructEntry.traverseByPowerIndex", "casadi_extras/structure3.py:canonical"]}
{"id": "C46", "title": "List assignment is aligned by repeat index", "statement": "s['x',sel]=L for a list or slice sel writes L[i] to repeat i for every i in sel (L indexed by the repeat number, not the position in sel); a list that is too short raises; a non-list value or repeated(v) is written to every selected repeat.", "quantifier": "every repeat count, selection and payload", "why_tests_cant": "all selections", "anchors": ["casadi_extras/structure3.py:payloadUnpack", "casadi_extras/structure3.py:StructEntry.traverseByPowerIndex"]}
{"id": "C47", "title": "Struct from dict", "statement": "struct(d) for a dict d raises unless the keys of d are exactly the struct's keys; otherwise the result reads d[k] at every key k and its .cat is the concatenation of the values.", "quantifier": "every struct and dict", "why_tests_cant": "all key sets and values", "anchors": ["casadi_extras/structure3.py:CasadiStructureDerivable.__call__"]}
{"id": "C48", "title": "Struct from data", "statement": "struct(a) for a scalar fills every element with it; for a column of length size it takes over exactly these data (struct(s.cat) == s); any other length raises.", "quantifier": "every struct and every column vector", "why_tests_cant": "all sizes", "anchors": ["casadi_extras/structure3.py:CasadiStructureDerivable.__call__", "casadi_extras/structure3.py:MatrixStruct.__init__"]}
{"id": "C49", "title": "parseMatrix splits the rows of a matrix", "statement": "struct.parseMatrix(data) for a struct of primitive column entries and data with size rows returns for every key the submatrix of the rows of this key, so that stacking the results in key order gives back data.", "quantifier": "every such struct and every data matrix with at least one column", "why_tests_cant": "all sizes; a matrix with a single row is silently broadcast", "anchors": ["casadi_extras/structure3.py:CasadiStructureDerivable.parseMatrix"]}
{"id": "C50", "title": "repeated() gives a per-column view", "statement": "struct.repeated(M) for a matrix with size rows: indexing with column number j then key k reads the part k of column j of M; assigning through it changes exactly these elements of the matrix that the view casts to.", "quantifier": "every struct, matrix, column and key", "why_tests_cant": "all sizes and histories of writes", "anchors": ["casadi_extras/structure3.py:CasadiStructureDerivable.repeated", "casadi_extras/structure3.py:DataReferenceRepeated"]}
{"id": "C51", "title": "squared()/product() give block access", "statement": "struct.squared(M)[a,b] and struct.product(other,M)[a,b] read the submatrix with the rows of key a and columns of key b; writes change exactly that block; a wrong shape raises; a scalar (including the default 0) is broadcast to all elements.", "quantifier": "every pair of structs, matrix and keys", "why_tests_cant": "all sizes; the broadcast claim fails for product when the first struct has size 1", "anchors": ["casadi_extras/structure3.py:CasadiStructureDerivable.squared", "casadi_extras/structure3.py:CasadiStructureDerivable.product", "casadi_extras/structure3.py:delegation", "casadi_extras/structure3.py:performExtraIndex"]}
{"id": "C52", "title": "struct_MX assembles its expressions", "statement": "struct_MX([entry(k,expr=e),...]).cat is the column of all elements of the expressions in order; s[k] reads e; reading before all entries are assigned raises; assigning an expression of different shape, or to a sub-element, raises and leaves the struct unchanged; re-assigning replaces exactly that entry.", "quantifier": "every list of named expressions, every sequence of assignments", "why_tests_cant": "all histories", "anchors": ["casadi_extras/structure3.py:MXVeccatStruct"]}
{"id": "C53", "title": "struct_MX_mutable read sees the latest write", "statement": "For a struct_MX_mutable, s[k] after s[k]=e reads e.", "quantifier": "every struct and every sequence of writes", "why_tests_cant": "requires a history construct-write-read; tests read only cat after writes", "anchors": ["casadi_extras/structure3.py:MXStruct", "casadi_extras/structure3.py:VertsplitStructure.buildMap", "casadi_extras/structure3.py:GetterDispatcher"]}
{"id": "C54", "title": "vertsplit map agrees with the index map", "statement": "For a symbolic MX struct, s[k] for a top-level or nested struct or primitive is exactly the elements of .cat at the positions s.i[k].", "quantifier": "every struct and canonical index", "why_tests_cant": "two independently computed layouts must agree on all structs", "anchors": ["casadi_extras/structure3.py:VertsplitStructure.buildMap", "casadi_extras/structure3.py:CasadiStructure.__init__"]}
{"id": "C55", "title": "Symmetric entries", "statement": "Reading an entry of type='symm' always yields a symmetric matrix; writing a symmetric matrix and reading it yields the same matrix; element (i,j) and (j,i) read the same; size counts only the upper triangle.", "quantifier": "every size n, matrix and history of writes", "why_tests_cant": "all sizes; element access below the diagonal is part of the claim", "anchors": ["casadi_extras/structure3.py:SetterDispatcher", "casadi_extras/structure3.py:GetterDispatcher", "casadi_extras/structure3.py:CasadiStructEntry"]}
{"id": "C56", "title": "Pickling preserves data", "statement": "Unpickling a pickled DM struct, or a list of DM structs, yields structs with the same layout and the same data.", "quantifier": "every struct and data, every list of struct values (possibly sharing a struct)", "why_tests_cant": "sharing patterns are unbounded", "anchors": ["casadi_extras/structure3.py:DMStruct.__getstate__", "casadi_extras/structure3.py:DMStruct.__setstate__"]}
{"id": "C57", "title": "Struct definition errors", "statement": "Duplicate entry names raise; an order argument naming an unknown entry raises; an order argument that omits or repeats an entry raises too (so that the layout covers each entry once).", "quantifier": "every entry list and order argument", "why_tests_cant": "all orders; the last clause is not enforced by the code", "anchors": ["casadi_extras/structure3.py:EntryList.__init__", "casadi_extras/structure3.py:Structure.__init__"]}
{"id": "C58", "title": "Nested lists of expressions", "statement": "entry(name,expr=L) for a nested list L of expressions gives repeat counts equal to the list lengths and all expressions of L are stored; ragged nested lists raise.", "quantifier": "every nested list", "why_tests_cant": "all shapes; truncation is silent", "anchors": ["casadi_extras/structure3.py:CasadiStructEntry.__init__", "casadi_extras/structure3.py:payloadUnpack"]}
{"id": "C59", "title": "prefix is index concatenation", "statement": "s.prefix[p][q] reads what s[p+q] reads and s.prefix[p][q]=v writes what s[p+q]=v writes.", "quantifier": "every struct, prefix, index, value", "why_tests_cant": "all indices", "anchors": ["casadi_extras/structure3.py:Prefixer"]}
{"id": "C60", "title": "Failed list assignment", "statement": "If an assignment raises part-way through a list or dict payload, .cat is unchanged.", "quantifier": "every struct, payload and failing position", "why_tests_cant": "crash-point property; the code performs no rollback", "anchors": ["casadi_extras/structure3.py:StructEntry.traverseByPowerIndex", "casadi_extras/structure3.py:SetterDispatcher"]}
{"id": "C61", "title": "Reading everything as dict or list and writing it back is the identity", "statement": "Assigning s[...] (or s[{}]) of one DM struct to t[...] (or t[{}]) of another of the same layout makes them equal.", "quantifier": "every struct and contents", "why_tests_cant": "all structs and data", "anchors": ["casadi_extras/structure3.py:Structure.traverseByPowerIndex"]}
{"id": "C62", "title": "ImplicitDae accepts exactly well-formed models", "statement": "ImplicitDae(**kw) succeeds iff the common arguments are well-formed as for SemiExplicitDae, xdot is a column with as many elements as x, and dae is a column with nx+nz elements; the object keeps the supplied parts and omitted parts are empty.", "quantifier": "every combination of keyword arguments", "why_tests_cant": "all combinations of present, absent and malformed arguments", "anchors": ["casadi_extras/dae_model.py:ImplicitDae.__init__", "casadi_extras/dae_model.py:Dae.__init__"]}
{"id": "C63", "title": "Ellipsis, dict, set and nesteddict indices distribute over the entries", "statement": "At a struct or nested struct, s[a,...,r] is the list over all entries k in layout order of s[a,k,r]; s[a,{},r] is the dict of the same (in definition order); s[a,{k1,k2},r] the dict over the named entries. A list, dict or plain value assigned there is handed entry by entry (position by position, key by key in the order of the dict, the same value to all), the first failure propagating. s[a,nesteddict] does this at every level down to elements, with repetitions as lists.", "quantifier": "every struct, node at any depth, index continuation and payload", "why_tests_cant": "all structures and depths", "anchors": ["casadi_extras/structure3.py:Structure.traverseByPowerIndex", "casadi_extras/structure3.py:StructEntry.traverseByPowerIndex", "casadi_extras/structure3.py:payloadUnpack"]}
{"id": "C64", "title": "Extra indices select parts of an element", "statement": "For an element a and one (column-major) or two (row, column) extra indices - integers, slices, lists of integers - s[a,x] is the corresponding submatrix of s[a], s[a,x]=v changes exactly the selected elements, and indices that are out of range or of another kind raise and change nothing.", "quantifier": "every struct, element, selection and content", "why_tests_cant": "all shapes, patterns and selections, negative steps and indices", "anchors": ["casadi_extras/structure3.py:performExtraIndex", "casadi_extras/structure3.py:GetterDispatcher", "casadi_extras/structure3.py:SetterDispatcher"]}
{"id": "C65", "title": "Definition of an entry", "statement": "entry(name,**kw) succeeds iff all keywords are known, no two given keywords exclude each other, shapestruct (if given) is a structure or a tuple of one or two structures or integers, the arguments determine an element pattern (of the expression, else of the symbol, else the shape, else the sizes of the structures, else a scalar), and a type is 'symm' with a square pattern. The entry then has the given name, the given repeat counts (the list lengths for a nested list of expressions), and the determined pattern, restricted to the upper triangle for 'symm'.", "quantifier": "every combination and value of the keyword arguments", "why_tests_cant": "all combinations of keywords, shapes and nested lists", "anchors": ["casadi_extras/structure3.py:CasadiStructEntry.__init__"]}
{"id": "C66", "title": "struct_symSX keeps given symbols", "statement": "In a struct_symSX every entry defined with sym=x reads as x, every element of the other entries reads as fresh symbols, distinct from each other; entries with expr raise, and struct_symMX raises for entries with expr or sym.", "quantifier": "every list of entries, order, symbols", "why_tests_cant": "all structs and symbols", "anchors": ["casadi_extras/structure3.py:ssymStruct.__init__", "casadi_extras/structure3.py:msymStruct.__init__"]}
{"id": "C67", "title": "Labels identify the positions", "statement": "canonicalIndices(extraMode=0) lists the canonical index of every element, in the order of the vector, once per nonzero; labels(extraMode) with an extra index gives a different label to every position of the vector.", "quantifier": "every struct, every extraMode other than 0", "why_tests_cant": "all structs and names; collisions need names with commas", "anchors": ["casadi_extras/structure3.py:CasadiStructure.canonicalIndices", "casadi_extras/structure3.py:CasadiStructure.getLabel", "casadi_extras/structure3.py:CasadiStructure.labels"]}
{"id": "C68", "title": "Flat getter s.f", "statement": "s.f[index] succeeds iff s.i[index] is a nested list of dense index matrices, and then lists their elements in order, all of them positions of the vector; it raises for elements that are not dense. If all primitive entries are dense and no nested struct is empty, s.f[...] lists every position exactly once, in increasing order if order has no groups.", "quantifier": "every struct and every power index without callables", "why_tests_cant": "all structs and power indices", "anchors": ["casadi_extras/structure3.py:FlatIndexGetter", "casadi_extras/structure3.py:CasadiStructure.FlatIndexDispatcher", "casadi_extras/structure3.py:vec"]}
{"id": "C69", "title": "The struct of a nested entry", "statement": "getStruct(name) returns the struct of the nested entry with this name and raises for unknown names and for entries that are not nested. With t = s.getStruct(name) and a the name followed by one repeat index per dimension, t(s[a])[q] reads what s[a,q] reads for every non-empty index q (whose callables, if any, only rearrange and are applied to something), and s[a,q]=v does what b=t(s[a]); b[q]=v; s[a]=b does.", "quantifier": "every struct, nested entry with at least one element, repetition, index and value", "why_tests_cant": "all structs, indices and data", "anchors": ["casadi_extras/structure3.py:Structure.getStruct", "casadi_extras/structure3.py:CasadiStructureDerivable.__call__"]}
{"id": "C70", "title": "What the collocation scheme rejects", "statement": "CollocationScheme(dae, t, order, method, tdp_fun) raises if t has fewer than two points, if the model has a time-dependent parameter and no function for it is given, if the model has quadratures that do not form a column, if its parameter has several rows and several columns, and (with two or more collocation points) if the function for the time-dependent parameter gives matrices with another non-zero number of rows.", "quantifier": "every model, grid, order and method", "why_tests_cant": "all models and shapes", "anchors": ["casadi_extras/collocation/collocation.py:CollocationScheme.__init__"]}
{"id": "C71", "title": "combine", "statement": "scheme.combine(what) returns the attributes with the given names, in the given order, if the names are distinct and all of them are among K, x, Z, U, u, p, eq, q; it raises AssertionError if a name is not among them, and Exception if a name is repeated.", "quantifier": "every scheme and every list of names", "why_tests_cant": "all lists of names", "anchors": ["casadi_extras/collocation/collocation.py:CollocationScheme.combine"]}
{"id": "C72", "title": "Objects that share data", "statement": "struct(v), squared(v), product(other, v), repeated(v) and squared_repeated(v) for a DM v refer to v itself (a scalar that is expanded gives a new matrix). In every program of such constructions, assignments through these objects and assignments to the matrices, each object reads and writes as if it had just been made from the matrix that it refers to, with the elements that the matrix has now; a write through an object changes this matrix and no other one.", "quantifier": "every program, every struct, index and value", "why_tests_cant": "all interleavings of writes through several objects", "anchors": ["casadi_extras/structure3.py:MatrixStruct.__init__", "casadi_extras/structure3.py:CasadiStructureDerivable.argtype", "casadi_extras/structure3.py:DataReferenceRepeated", "casadi_extras/structure3.py:DataReferenceSquared", "casadi_extras/structure3.py:DataReferenceProduct", "casadi_extras/structure3.py:DataReferenceSquaredRepeated", "casadi_extras/structure3.py:SetterDispatcher"]}
{"id": "C73", "title": "Solutions keep linear balance laws", "statement": "If the model implies sum w[i]*xdot[i] = sum v[k]*quad[k], then at every solution of scheme.eq the weighted sum of the states at each interval bound and each collocation point is its initial value plus the same combination of the quadratures q and Q there (with v=0: the linear invariant is conserved exactly).", "quantifier": "every model, grid with different neighbours, distinct nodes, weights, solution", "why_tests_cant": "all models and grids; tests compare with tolerances", "anchors": ["casadi_extras/collocation/collocation.py:CollocationScheme.__init__", "casadi_extras/collocation/collocation.py:CollocationScheme.eq"]}
{"id": "C74", "title": "Solutions with Gauss nodes keep quadratic balance laws", "statement": "If the nodes are Gauss nodes and the model implies d/dt x'Sx = sum v[k]*quad[k], then at every solution of scheme.eq x'Sx at each interval bound is its initial value plus the same combination of q there.", "quantifier": "every model, grid with different neighbours, Gauss nodes, matrix S, solution", "why_tests_cant": "all models and grids; tests compare with tolerances", "anchors": ["casadi_extras/collocation/collocation.py:CollocationScheme.__init__", "casadi_extras/collocation/collocation.py:CollocationScheme.eq", "casadi_extras/collocation/butcher.py:butcherTableuForCollocationPoints"]}
{"id": "C75", "title": "The tableau is symplectic exactly for Gauss nodes", "statement": "For distinct nodes tau the tableau satisfies b[i]*A[i,j] + b[j]*A[j,i] = b[i]*b[j] for all i, j if and only if tau are Gauss nodes (the node polynomial is orthogonal on [0,1] to all polynomials of smaller degree).", "quantifier": "every list of distinct nodes over a field of characteristic 0", "why_tests_cant": "all orders and nodes", "anchors": ["casadi_extras/collocation/butcher.py:butcherTableuForCollocationPoints"]}
{"id": "C76", "title": "Time reversal", "statement": "For nodes that are symmetric in [0,1] the tableau satisfies b[s-1-j] = b[j] and A[s-1-i,s-1-j] = b[j]-A[i,j], and the collocation equations on the reversed grid hold for the variables with reversed columns exactly if the equations on the grid hold for the variables; then the times and states at the collocation points are reversed and q runs backwards from its final value.", "quantifier": "every model, grid, symmetric distinct nodes, values of the variables", "why_tests_cant": "all models, grids and values", "anchors": ["casadi_extras/collocation/butcher.py:butcherTableuForCollocationPoints", "casadi_extras/collocation/collocation.py:CollocationScheme.__init__", "casadi_extras/collocation/collocation.py:CollocationScheme.eq"]}
{"id": "C77", "title": "Splitting the grid", "statement": "The collocation equations on a grid hold exactly if the equations on its first m intervals and those on the remaining intervals hold for the corresponding columns (the last state of the first part being the first of the second) with the same parameter; the states at the collocation points are those of the parts and q is continued additively.", "quantifier": "every model, grid, 0<m<N, nodes, values of the variables", "why_tests_cant": "all models, grids and values", "anchors": ["casadi_extras/collocation/collocation.py:CollocationScheme.__init__", "casadi_extras/collocation/collocation.py:CollocationScheme.eq"]}
{"id": "C78", "title": "Existence and uniqueness of the collocation solution", "statement": "For a model xdot = f(x,u,p,t,tdp) without algebraic states whose right-hand side is Lipschitz in x with constant L, if L*|h_n|*max_j sum_k |A[j,k]| <= theta < 1 for all intervals, then for every initial state, inputs and parameter scheme.eq has a solution, and x, K and X of any two solutions agree.", "quantifier": "every such model over the reals, grid, nodes, initial state, inputs, parameter", "why_tests_cant": "all right-hand sides and data; existence cannot be tested", "anchors": ["casadi_extras/collocation/collocation.py:CollocationScheme.__init__", "casadi_extras/collocation/collocation.py:CollocationScheme.eq"]}
{"id": "C79", "title": "Callables in power indices", "statement": "At a struct, a nested struct or an entry whose repeat indices are not all given, s[a,f,r] = f(s[a,r]) and s.i[a,f,r] = f(s.i[a,r]) for every callable f, and s[a,f,r] raises iff s[a,r] or f does. At an element that is not of type 'symm', s[a,f,r] is the part of the vector at the positions f(s.i[a,r]). s[a,f,r] = v writes v to the positions f(s.i[a,r]) if v fits, changes nothing else, and raises without a change if s.i[a,r] or f raises, whatever v is.", "quantifier": "every struct, index, callable, value", "why_tests_cant": "all structs, indices and callables", "anchors": ["casadi_extras/structure3.py:Dispatcher", "casadi_extras/structure3.py:CasadiStructure.IMDispatcher", "casadi_extras/structure3.py:GetterDispatcher", "casadi_extras/structure3.py:SetterDispatcher"]}
{"id": "C80", "title": "Starting point of the integrator", "statement": "The root search of CollocationIntegrator starts with the state x0 at every grid point and collocation point, state derivative 0 and algebraic state z0 at every collocation point; this point solves the collocation equations exactly if the model with state x0, algebraic state z0, state derivative 0 and the inputs and parameters of the call has zero residual at all collocation points.", "quantifier": "every model for which the integrator can be constructed, grid, nodes, x0, z0, inputs, parameters", "why_tests_cant": "all models, grids and data", "anchors": ["casadi_extras/collocation/collocation.py:CollocationIntegrator.__init__"]}
{"id": "C81", "title": "Dissipative and contractive models", "statement": "On an increasing grid with Gauss nodes, or with Radau nodes and x'Sx >= 0: if the model implies d/dt x'Sx <= sum v[k]*quad[k], then at every solution of scheme.eq x'Sx increases on each interval at most by the same combination of the increases of q; if x'Sx of the difference of two states does not increase along the model for equal inputs, parameters and times, then it does not increase from one interval bound to the next for two solutions of scheme.eq with equal inputs and parameter, and if x'Sx > 0 for x != 0 the states at the interval bounds are determined by the initial state. There is no limit on the length of the steps.", "quantifier": "every model over the reals, increasing grid, Gauss or Radau nodes, matrix S, solution", "why_tests_cant": "all models, grids and step lengths", "anchors": ["casadi_extras/collocation/collocation.py:CollocationScheme.__init__", "casadi_extras/collocation/collocation.py:CollocationScheme.eq", "casadi_extras/collocation/butcher.py:butcherTableuForCollocationPoints"]}
{"id": "C82", "title": "Collocation points at the interval bounds", "statement": "If a node is 1, then at every solution of scheme.eq time, state and quadratures at its collocation point are those of the next grid point and the residual of the model (with its algebraic equations) vanishes with the state at the grid point; if a node is 0, the same holds for the grid point where the interval begins.", "quantifier": "every model, grid, nodes, solution", "why_tests_cant": "all models and grids", "anchors": ["casadi_extras/collocation/collocation.py:CollocationScheme.__init__", "casadi_extras/collocation/collocation.py:CollocationScheme.eq", "casadi_extras/collocation/butcher.py:butcherTableuForCollocationPoints"]}
{"id": "C83", "title": "Convergence to the exact solution", "statement": "For a model xdot = f(x,u,p,t,tdp) without algebraic states that is Lipschitz in x with constant L, distinct nodes in [0,1] and steps of at most H with L*H*max_j sum_k |A[j,k]| <= theta < 1: if y solves the model for the inputs and parameter of a solution of scheme.eq and the M-th derivative of y' is bounded by B on each interval, then |x - y| at the grid points is at most exp(La*(t-t0))*(e0 + (t-t0)*C*H^M) with La = sum|b|*L/(1-theta), C = (1+sum|b|+La*H*(1+max_j sum_k |A[j,k]|))*B/(M-1)! and e0 the error of the initial state; a bound of the same order holds at the collocation points, and for q if the quadrature is Lipschitz in x.", "quantifier": "every such model over the reals, grid, nodes, solution, exact solution", "why_tests_cant": "all right-hand sides; tests compare with tolerances on a few examples", "anchors": ["casadi_extras/collocation/collocation.py:CollocationScheme.__init__", "casadi_extras/collocation/collocation.py:CollocationScheme.eq", "casadi_extras/collocation/butcher.py:butcherTableuForCollocationPoints"]}
{"id": "C84", "title": "The integrator for ordinary differential equations", "statement": "For a model xdot = f(x,u,p,t,tdp) without algebraic states that is Lipschitz in x, and steps that are short enough, the equations that CollocationIntegrator gives to the root finder have exactly one solution for all x0, z0, u, p; for every call in which the root finder finds a root, the returned states x, xf, X differ from the exact solution with initial state within e0 of x0 at most by the bounds of the property above, and qf from the exact integrals by the corresponding bound.", "quantifier": "every such model over the reals for which the integrator can be constructed, grid, nodes, x0, z0, u, p, exact solution", "why_tests_cant": "all right-hand sides and data; tests compare with tolerances on a few examples", "anchors": ["casadi_extras/collocation/collocation.py:CollocationIntegrator.__init__"]}
{"id": "C85", "title": "Accuracy of Pdq and PiecewisePoly for smooth functions", "statement": "For samples of a function f that is smooth on each interval [t_n, t_{n+1}] of length h: interpolator('both') differs from f there at most by B*h^(order+1)/(order+1)! with B a bound of the derivative of order order+1; interpolator('right') of a function that may jump at the bounds by B*h^order/order! with B a bound of the derivative of order order; Pdq.derivative differs from f' at the collocation points at most by B*h^order/order! and Pdq.integral from the integral over [t_0, t] at most by (t-t_0)*B*H^order/order! (schemes that end in 1, or one interval); a PiecewisePoly with M nodes in [0,1] differs from f at most by B*h^M/M! and its derivative() from f' by B*h^(M-1)/(M-1)!.", "quantifier": "every scheme, order, grid, smooth function over the reals, query point", "why_tests_cant": "all functions and grids; tests compare with tolerances on a few functions", "anchors": ["casadi_extras/collocation/polynomial.py:PolynomialBasis.interpolationMatrix", "casadi_extras/collocation/collocation.py:Pdq.interpolator", "casadi_extras/collocation/collocation.py:Pdq.derivative", "casadi_extras/collocation/collocation.py:Pdq.integral", "casadi_extras/collocation/piecewise_poly.py:PiecewisePoly.__call__", "casadi_extras/collocation/piecewise_poly.py:PiecewisePoly.derivative"]}
{"id": "C86", "title": "Classes of exceptions", "statement": "Whatever fails in s[...], s[...] = v or s.i[...] (unknown name, index out of range, wrong shape, an exception in a callable), the exception is a plain Exception; s(arg) and the definition of a struct raise nothing but Exception, entry(...) Exception or, because of type, TypeError; Inequality raises AssertionError or, if a bound cannot be converted, RuntimeError; model constructors raise KeyError only if a required keyword is missing and ValueError otherwise; Pdq with at least one interval, ButcherTableau, PiecewisePoly and SystemTrajectory raise nothing but AssertionError; PiecewisePoly.__call__ nothing but ValueError; apart from exceptions of cs.collocation_points and cs.Function, CollocationScheme raises ValueError for a single time point and in no other case, AssertionError if the model has a time-dependent parameter and tdp_fun is missing (at least two times) and in no other case, and otherwise RuntimeError; CollocationIntegrator raises nothing else", "quantifier": "every struct, power index, value, entry, model, grid, order, tdp_fun", "why_tests_cant": "all failing inputs; a caller that catches a class must not miss one", "anchors": ["casadi_extras/structure3.py:Structure.traverseByPowerIndex", "casadi_extras/structure3.py:CasadiStructureDerivable.__call__", "casadi_extras/structure3.py:CasadiStructEntry.__init__", "casadi_extras/inequality.py:Inequality.__new__", "casadi_extras/dae_model.py:Dae.__init__", "casadi_extras/collocation/collocation.py:Pdq.__init__", "casadi_extras/collocation/piecewise_poly.py:PiecewisePoly.__call__", "casadi_extras/collocation/collocation.py:CollocationScheme.__init__", "casadi_extras/collocation/collocation.py:CollocationIntegrator.__init__"]}
{"id": "C87", "title": "Order of the method for linear models", "statement": "If the quadrature formula of M distinct nodes is exact for polynomials of degree less than P (P = 2M for Gauss nodes, 2M-1 for Radau nodes, at least M for all nodes), then the tableau satisfies b*A^k*(1,...,1) = 1/(k+1)! for all k < P; and for a model xdot = La*x + g(u,p) with max_i sum_j |La[i,j]| <= L and steps of at most H with L*H*max_j sum_k |A[j,k]| <= theta < 1, the states at the grid points of every solution of scheme.eq, and those that CollocationIntegrator returns, differ from the exact solution at most by exp(G*(t-t0))*(e0 + (t-t0)*D*H^P) with G = L*exp(L*H) + sum|b|*L*theta^P/(1-theta), D = (L^P/(P+1)! + sum|b|*(L*max_j sum_k |A[j,k]|)^P/(1-theta))*B, B a bound of the derivative of the exact solution and e0 the error of the initial state.", "quantifier": "all distinct nodes over any field of characteristic 0 (conditions on the tableau); every linear model over the reals, grid, nodes, solution, exact solution", "why_tests_cant": "all nodes, models and grids; tests compare with tolerances on a few examples", "anchors": ["casadi_extras/collocation/butcher.py:butcherTableuForCollocationPoints", "casadi_extras/collocation/collocation.py:CollocationScheme.__init__", "casadi_extras/collocation/collocation.py:CollocationScheme.eq", "casadi_extras/collocation/collocation.py:CollocationIntegrator.__init__"]}
{"id": "C88", "title": "Models with algebraic states of index one", "statement": "If the residual of a model determines derivative and algebraic state at given x, u, p, t, tdp at most once, Lipschitz in x with constants L and Lz (for a semi-explicit model xdot = f(x,z,..), 0 = g(x,z,..) this follows with L = Lx+Lf*a/m, Lz = a/m from Lipschitz constants Lx, Lf of f, a of g in x, and m*|z-z'| <= |g(x,z)-g(x,z')|), and steps are of at most H with L*H*max_j sum_k |A[j,k]| <= theta < 1, then: two solutions of scheme.eq with the same first state, inputs and parameter agree in x, X, K and Z; if the residual can be solved at all points, a solution exists for all x0, u, p; for distinct nodes in [0,1] and an exact solution (y, zeta) whose y' has the M-th derivative bounded by B, x differs from y at most by exp(La*(t-t0))*(e0 + (t-t0)*C*H^M), X, K and Z from y, y' and zeta at the collocation points by bounds of the same order, as do the outputs of CollocationIntegrator and the quadratures q.", "quantifier": "every such model over the reals, grid, nodes, solution, exact solution", "why_tests_cant": "all models; tests compare the end values of one equation (alg = z*z - x) with tolerances", "anchors": ["casadi_extras/collocation/collocation.py:CollocationScheme.__init__", "casadi_extras/collocation/collocation.py:CollocationScheme.eq", "casadi_extras/collocation/collocation.py:CollocationIntegrator.__init__", "casadi_extras/dae_model.py:SemiExplicitDae", "casadi_extras/collocation/butcher.py:butcherTableuForCollocationPoints"]}
{"id": "C89", "title": "Views of MX matrices by two structs", "statement": "squared(a), product(other, a) and squared_repeated(a) of a dense MX a give a view that casts to a and reads for every power index what the view of a DM a reads; after any sequence of writes through the view it raises, casts and reads as the view of a DM a after the same writes.", "quantifier": "every two structs, dense matrix, power index, sequence of writes", "why_tests_cant": "all sequences of writes and power indices; no test has an MX view", "anchors": ["casadi_extras/structure3.py:CasadiStructureDerivable.squared", "casadi_extras/structure3.py:CasadiStructureDerivable.product", "casadi_extras/structure3.py:CasadiStructureDerivable.squared_repeated", "casadi_extras/structure3.py:VertsplitStructure.buildMap", "casadi_extras/structure3.py:MXStruct.__init__"]}
{"id": "C90", "title": "Pickling of objects of all classes", "statement": "Unpickling a pickled list of objects (struct, struct_symSX, struct_symMX, struct_SX, struct_MX_mutable, struct_MX, DM structs, and the CasadiStructure inside them) yields objects of the same classes with the same layouts; DM structs have the same data, symbolic structs new symbols.", "quantifier": "every list of such objects, with or without common or nested structs, whatever was pickled before", "why_tests_cant": "sharing patterns are unbounded; no test pickles anything", "anchors": ["casadi_extras/structure3.py:CasadiStructure.__getstate__", "casadi_extras/structure3.py:CasadiStructure.__setstate__", "casadi_extras/structure3.py:CasadiStructured.__getstate__", "casadi_extras/structure3.py:CasadiStructured.__setstate__", "casadi_extras/structure3.py:DMStruct.__getstate__", "casadi_extras/structure3.py:DMStruct.__setstate__"]}
{"id": "C91", "title": "Order of the method at the grid points for nonlinear models", "statement": "If the quadrature formula of M distinct nodes in [0,1] is exact for polynomials of degree less than M+m with m >= 1 (m = M for Gauss nodes, M-1 for Radau nodes, never more than M), the model is xdot = f(x,u,p,t,tdp) with f Lipschitz in x with constant L and differentiable in x along the exact solution y with a Jacobian J(t) and a remainder of at most C2*|x-y|^2, and the steps are of at most H <= 1 with L*H*max_j sum_k |A[j,k]| <= theta < 1, then the states at the grid points of every solution of scheme.eq, and those that CollocationIntegrator returns, differ from y at most by exp(G*(t-t0))*(e0 + (t-t0)*D*H^(M+m)), where G and D are explicit expressions in L, theta, sum|b|, max_j sum_k |A[j,k]|, C2, bounds B of the derivatives of y' of the orders M..M+m and Ga of the derivatives of J of the orders 0..m-1, and e0 is the error of the initial state.", "quantifier": "every such model over the reals, grid, nodes, solution, exact solution", "why_tests_cant": "all models, nodes and grids; tests compare with tolerances on a few examples", "anchors": ["casadi_extras/collocation/butcher.py:butcherTableuForCollocationPoints", "casadi_extras/collocation/collocation.py:CollocationScheme.__init__", "casadi_extras/collocation/collocation.py:CollocationScheme.eq", "casadi_extras/collocation/collocation.py:CollocationIntegrator.__init__"]}
{"id": "C92", "title": "Order of the method at the grid points for models with algebraic states and for quadratures", "statement": "With nodes and steps as in the previous property: if the model is of index one (where the residual vanishes, xdot and z depend Lipschitz continuously on x) and xdot is, where the residual vanishes, differentiable in x along the exact solution with a quadratic remainder, then the states at the grid points of every solution of scheme.eq differ from the exact ones at most by an explicit constant times H^(M+m) plus the propagated initial error. If the quadrature expression is also Lipschitz in x and z, and differentiable in x along the solution, then scheme.q at the grid points differs from the exact integrals at most by such a bound as well. The outputs x, xf and qf of CollocationIntegrator satisfy the same bounds.", "quantifier": "every such model over the reals, grid, nodes, solution, exact solution", "why_tests_cant": "all models, nodes and grids; tests compare the end values of one model with algebraic states (alg = z*z - x) on one interval with tolerances", "anchors": ["casadi_extras/collocation/butcher.py:butcherTableuForCollocationPoints", "casadi_extras/collocation/collocation.py:CollocationScheme.__init__", "casadi_extras/collocation/collocation.py:CollocationScheme.eq", "casadi_extras/collocation/collocation.py:CollocationScheme.q", "casadi_extras/collocation/collocation.py:CollocationIntegrator.__init__"]}
{"id": "C93", "title": "Text of a struct", "statement": "str(s) and str(t) of two structs are equal exactly if the structs have the same total size, the same order and, one by one, entries with the same name, repeat counts, numbers of rows and columns, type (symm or not) and nested structs that correspond in the same way; the compact text exactly if this holds but for total size and order. Texts of objects are equal exactly if also the description of the class is. So patterns and the orders of nested structs are not shown: two structs with equal text can have different layouts.", "quantifier": "every two structs whose names contain none of the characters : } ' = newline", "why_tests_cant": "all pairs of structs; no test looks at a text", "anchors": ["casadi_extras/structure3.py:StructEntry.__str__", "casadi_extras/structure3.py:Structure.__str__", "casadi_extras/structure3.py:CasadiStructure.__str__", "casadi_extras/structure3.py:Structured.__str__", "casadi_extras/structure3.py:CasadiStructEntry.primitiveString"]}
{"id": "C94", "title": "Existence and uniqueness of the nodes of the highest orders", "statement": "For every M there is exactly one increasing list of M nodes (Gauss) such that the quadrature formula of the tableau is exact for all polynomials of degree less than 2M, and for every M >= 1 exactly one with last node 1 (Radau) such that it is exact for degree less than 2M-1. Gauss nodes lie in (0,1), are distinct and symmetric (c[M-1-j] = 1-c[j]); Radau nodes lie in (0,1] and are distinct; the weights b are positive for both. So the order of the formula determines up to permutation what cs.collocation_points must return, and the conditions on the nodes in C74, C75, C76, C81, C87, C91, C92 can be satisfied for every order.", "quantifier": "every number of nodes, every list of real nodes", "why_tests_cant": "all orders; tests use a few orders", "anchors": ["casadi_extras/collocation/butcher.py:butcherTableuForCollocationPoints", "casadi_extras/collocation/butcher.py:butcherTableuForCollocationMethod", "casadi_extras/collocation/polynomial.py:collocationPoints"]}
{"id": "C95", "title": "Exactly one collocation solution of contractive models, for steps of any length", "statement": "Let the model be contractive with respect to a positive definite quadratic form (the distance of two of its solutions with the same inputs does not grow), the nodes those of Gauss or Radau, and the grid increasing. Then two solutions of the collocation equations with the same initial state, inputs and parameter have the same states and derivatives at all interval bounds and collocation points. If the model is an ordinary differential equation with a right-hand side that is Lipschitz continuous on bounded sets (for example x' = -x^3), there is such a solution for every initial state, every input and every parameter. In both cases the lengths of the intervals and the stiffness of the model do not matter (compare C78, which needs small steps).", "quantifier": "all contractive models, all Gauss and Radau nodes, all increasing grids, all initial states, inputs and parameters", "why_tests_cant": "all nonlinear models and all step lengths; tests solve a few problems on fixed grids", "anchors": ["casadi_extras/collocation/collocation.py:CollocationScheme.__init__", "casadi_extras/collocation/butcher.py:butcherTableuForCollocationPoints", "casadi_extras/collocation/polynomial.py:collocationPoints"]}
{"id": "C96", "title": "Convergence for stiff models: error bounds with one constant for all contractive models", "statement": "For every list of Gauss or Radau nodes (M of them), every m and every positive definite quadratic form in m variables there is a constant C such that for EVERY model with m states that is contractive with respect to the form, every increasing grid with steps of at most H and every solution of the collocation equations: if y is a solution of the model with the same inputs and parameter whose derivative has on every interval an M-th derivative of at most B, then the states at the interval bounds differ from y at most by C*(e0 + B*(t-t0)*H^M), where e0 is the largest initial error, and those at the collocation points at most by C*(e0 + B*(t-t0)*H^M + B*H^(M+1)); in the norm of the form the factor of the initial error is 1. The outputs x, xf and X of CollocationIntegrator satisfy the same bounds. C does not depend on the model or on a Lipschitz constant of it, the steps need not be small and nothing grows exponentially with the time (compare C83 and C88, whose bounds contain exp(L*(t-t0)) and need L*H small): x' = cos(t) - l*(x - sin(t)) is solved with the same accuracy for all l >= 0.", "quantifier": "all contractive models (with or without algebraic states) with one constant, all Gauss and Radau nodes, all increasing grids, all solutions", "why_tests_cant": "the constant is the same for infinitely many models; tests solve a few problems on fixed grids, none of them stiff", "anchors": ["casadi_extras/collocation/collocation.py:CollocationScheme.__init__", "casadi_extras/collocation/collocation.py:CollocationScheme.eq", "casadi_extras/collocation/collocation.py:CollocationIntegrator.__init__", "casadi_extras/collocation/butcher.py:butcherTableuForCollocationPoints", "casadi_extras/collocation/polynomial.py:collocationPoints"]}
{"id": "C97", "title": "Equations solved up to a tolerance", "statement": "Root finders stop when the residual is small. (1) If differences of the residual bound the differences of the state derivative and the algebraic state (semi-explicit models with Lipschitz continuous ode and alg such that m times the differences of z is at most a times those of x plus those of alg are of this kind, with explicit constants) and L*H*alpha <= theta < 1, then two assignments with the same inputs and parameters whose collocation equations hold up to tol1 and tol2 have states that differ at most by exp(Lambda*(t-t0))*(e0 + (t-t0)*beta*G/(1-theta)*tol + n*tol) with tol = tol1+tol2, with corresponding bounds for K, X and Z. (2) With a root finder that returns a point with residuals of at most tol, the outputs x and xf of CollocationIntegrator differ from the exact solution of the model at most by the bound of C88 plus exp(Lambda*(t-t0))*(1 + (t-t0)*beta*G/(1-theta) + n)*tol. (3) For Gauss and Radau nodes there is one constant C for all ordinary differential equations contractive with respect to a given form: for steps of any length the states differ in the norm of the form at most by the initial difference plus C*(t-t0+n)*(tol1+tol2).", "quantifier": "all regular models, all contractive ordinary differential equations, all grids, all pairs of approximate solutions, all root finders with a tolerance", "why_tests_cant": "all approximate solutions; tests see the one that the root finder returns and compare with tolerances", "anchors": ["casadi_extras/collocation/collocation.py:CollocationScheme.__init__", "casadi_extras/collocation/collocation.py:CollocationScheme.eq", "casadi_extras/collocation/collocation.py:CollocationIntegrator.__init__", "casadi_extras/collocation/collocation.py:CollocationIntegrator.integrate", "casadi_extras/collocation/butcher.py:butcherTableuForCollocationPoints"]}
{"id": "C98", "title": "Root search of the integrator for contractive models, for steps of any length", "statement": "Let the model be contractive with respect to a positive definite form and determine the state derivative and the algebraic state as functions of the state that are Lipschitz continuous on bounded sets; let the nodes be those of Gauss or Radau and the grid increasing. Then the collocation equations have a solution for every initial state, input and parameter (models with algebraic states included; compare C95), and the system that CollocationIntegrator gives to the root finder has exactly one solution in (x, K, Z). For ordinary differential equations with residual xdot - ode there is one constant C for all models that are contractive with respect to the form such that, with a root finder that solves the equations up to tol, the outputs x and xf differ from the exact solution at most by C*(e0 + B*(t-t0)*H^M + (t-t0+n+1)*tol).", "quantifier": "all such models, all Gauss and Radau nodes, all increasing grids, all initial states, inputs and parameters, all root finders with a tolerance", "why_tests_cant": "all models and step lengths; tests solve a few problems on fixed grids", "anchors": ["casadi_extras/collocation/collocation.py:CollocationScheme.__init__", "casadi_extras/collocation/collocation.py:CollocationScheme.eq", "casadi_extras/collocation/collocation.py:CollocationIntegrator.__init__", "casadi_extras/collocation/butcher.py:butcherTableuForCollocationPoints", "casadi_extras/collocation/polynomial.py:collocationPoints"]}
{"id": "C99", "title": "Accuracy of the trajectory x_traj at all times", "statement": "The nodes determine a constant C such that for every scheme and every assignment the piecewise polynomial trajectory piecewisePolyX(x, K) differs from a function y with piecewise smooth derivative f on an interval of length h at most by C times the largest difference at the start of the interval and at its collocation points, plus B*h^(M+1); its derivative differs from f at most by this divided by h, and at most by C times the largest difference of K from f plus B*h^M. Consequently the trajectory that integrate() returns, evaluated at any list of times between the first and the last grid point, differs from the exact solution (a) for models of index one and short steps at most by C times the bound of C88 plus B*H^(M+1), and its derivative from the exact one by C*L times the bound plus B*H^M; (b) for contractive models, Gauss or Radau nodes and steps of any length at most by C*(e0 + B*(t-t0)*H^M + B*H^(M+1)), with one constant for all models that are contractive with respect to the form.", "quantifier": "all nodes in (0,1], all models of these classes, all grids, initial states, inputs, parameters, root finders, and all evaluation times between the first and the last grid point", "why_tests_cant": "all models, grids and evaluation times; tests evaluate trajectories at a few times", "anchors": ["casadi_extras/collocation/collocation.py:CollocationScheme.piecewisePolyX", "casadi_extras/collocation/collocation.py:CollocationIntegrator.integrate", "casadi_extras/collocation/collocation.py:CollocationIntegrator.__init__", "casadi_extras/collocation/piecewise_poly.py:PiecewisePoly.__call__", "casadi_extras/collocation/piecewise_poly.py:PiecewisePoly.derivative"]}
{"id": "C100", "title": "Reading with a power index is indexing .cat with s.i", "statement": "For a struct without entries of type 'symm' and an object without symbols of its own, s[pi] raises exactly when s.i[pi] raises, and otherwise it has the same nesting of lists and dicts, with matrices of the same sparsity whose elements are those of s.cat at the positions in s.i[pi]; all these positions are less than s.size. Hence s[pi] depends on the elements of s.cat at these positions only.", "quantifier": "every struct without symmetric entries, every power index, also with callables that do to index matrices what they do to matrices of values, and all contents", "why_tests_cant": "all structs, power indices and contents; tests compare a few", "anchors": ["casadi_extras/structure3.py:MasterGettable.__getitem__", "casadi_extras/structure3.py:GetterDispatcher", "casadi_extras/structure3.py:CasadiStructure.IMDispatcher", "casadi_extras/structure3.py:Structure.traverseByPowerIndex", "casadi_extras/structure3.py:StructEntry.traverseByPowerIndex"]}
{"id": "C101", "title": "Assignments do not read the object", "statement": "For every struct, power index and value there are one result (success or an exception) and one function from positions to values such that for all contents the assignment s[pi] = v gives this result and puts the values of the function at the positions where it is defined, leaving the other elements alone; the same holds for every sequence of assignments up to the first one that raises. Hence a sequence of assignments that is done again, whether it succeeded or raised, has the same result and changes nothing.", "quantifier": "every struct (also with symmetric entries), every power index, also with callables, every value, every sequence of assignments and all contents", "why_tests_cant": "all power indices, values and contents, including assignments that raise after having written some elements", "anchors": ["casadi_extras/structure3.py:MasterSettable.__setitem__", "casadi_extras/structure3.py:SetterDispatcher", "casadi_extras/structure3.py:Structure.traverseByPowerIndex", "casadi_extras/structure3.py:StructEntry.traverseByPowerIndex", "casadi_extras/structure3.py:payloadUnpack"]}
{"id": "C102", "title": "Assignments to different entries do not interfere", "statement": "An assignment whose power index begins with a name or a set of names (possibly after callables that rearrange index matrices), whatever follows, whatever the value, and whether it succeeds or raises, changes no element of any other entry of the struct. Two such assignments for disjoint sets of names can be exchanged: each has the result that it has alone, and the contents after both do not depend on the order.", "quantifier": "every well-formed struct (grouped orders, nested structs and symmetric entries included), all such power indices, values and contents", "why_tests_cant": "all structs, power indices and values; entries may alternate in the vector", "anchors": ["casadi_extras/structure3.py:MasterSettable.__setitem__", "casadi_extras/structure3.py:SetterDispatcher", "casadi_extras/structure3.py:Structure.traverseByPowerIndex", "casadi_extras/structure3.py:CasadiStructure.__init__"]}
{"id": "C103", "title": "The last assignment wins", "statement": "If the assignment s[pi] = w succeeds, then an assignment s[pi] = v before it, whether that one succeeded or raised part-way, leaves no trace: the contents and the result are those of s[pi] = w alone. Hence where s[pi] = v writes depends on the power index and not on the value: elements that a successful s[pi] = w leaves alone, whatever they are, are left alone by every s[pi] = v. (For dicts as values this is false of the code: a dict is written for its own keys only.)", "quantifier": "every well-formed struct (symmetric entries, nested structs and grouped orders included), every power index, also with callables, all contents, and all values that contain no dicts", "why_tests_cant": "all power indices and pairs of values, including assignments that raise after having written some elements", "anchors": ["casadi_extras/structure3.py:MasterSettable.__setitem__", "casadi_extras/structure3.py:SetterDispatcher", "casadi_extras/structure3.py:Structure.traverseByPowerIndex", "casadi_extras/structure3.py:StructEntry.traverseByPowerIndex", "casadi_extras/structure3.py:payloadUnpack", "casadi_extras/structure3.py:performExtraIndex"]}
{"id": "C104", "title": "Reading and writing with the same index are inverse to each other", "statement": "If s[pi] reads v, then s[pi] = v succeeds and changes nothing. Conversely, if v has the nesting of lists and dicts and the sparsity patterns of what s.i[pi] reads, then s[pi] = v succeeds, writes the values of v to the positions of s.i[pi] one after another and nothing else, and afterwards s[pi] reads v, unless v holds different values for the same position. Writing is also forgetful: a value v read in any state of the vector can be written to every other state and is then read back, and s[pi] = v1 before s[pi] = v leaves no trace. The same laws hold with symmetric entries that are taken as a whole and declared with a symmetric pattern. (This needs that repetitions are selected from the first one on and without gaps, and is false of the code otherwise: lists are read in the order of the selection but written by the numbers of the repetitions, so s['a', ::-1] = s['a', ::-1] swaps repetitions and s['a', 1:] = s['a', 1:] raises.)", "quantifier": "every well-formed struct (nested structs and grouped orders included), every power index of strings, integers, slices, lists, dicts, sets and extra indices with such selections (and, if there are symmetric entries, no extra indices for them and lists of names only at the end), all contents, all values", "why_tests_cant": "all power indices, nestings and contents; tests write and read with a handful of indices", "anchors": ["casadi_extras/structure3.py:MasterGettable.__getitem__", "casadi_extras/structure3.py:MasterSettable.__setitem__", "casadi_extras/structure3.py:SetterDispatcher", "casadi_extras/structure3.py:GetterDispatcher", "casadi_extras/structure3.py:Structure.traverseByPowerIndex", "casadi_extras/structure3.py:StructEntry.traverseByPowerIndex", "casadi_extras/structure3.py:payloadUnpack", "casadi_extras/structure3.py:performExtraIndex"]}
{"id": "C105", "title": "An assignment changes only what its index selects", "statement": "In a struct without symmetric entries, s[pi] = v changes no element whose position is not in s.i[pi] (pi without its callables), whether or not the assignment succeeds. Therefore it does not change what other indices with other positions read, and two assignments whose positions are disjoint can be exchanged: each has the result (or exception) that it has alone, and the contents after both do not depend on their order. (For symmetric entries this is false: s.i['P', 1, 0] is empty, and s['P', 1, 0] = 5 changes the stored element (0, 1).)", "quantifier": "every well-formed struct without symmetric entries (nested structs and grouped orders included), all power indices whose callables rearrange elements, all values (dicts with unknown keys and values of wrong shapes included), all contents", "why_tests_cant": "all power indices, values and contents, successful or not; tests look at the assigned elements only", "anchors": ["casadi_extras/structure3.py:MasterSettable.__setitem__", "casadi_extras/structure3.py:SetterDispatcher", "casadi_extras/structure3.py:Structure.traverseByPowerIndex", "casadi_extras/structure3.py:StructEntry.traverseByPowerIndex", "casadi_extras/structure3.py:payloadUnpack", "casadi_extras/structure3.py:performExtraIndex"]}
{"id": "C106", "title": "Linear parts of a model: the transfer matrix of a step, and what happens to stiff components", "statement": "Let combinations y = W*x - g(u, p) of the states obey d/dt(W*x) = La*y wherever the residual vanishes (the rest of the model may be nonlinear). Let Om be the polynomial with the nodes as roots and E(c) = sum_j Om^(j)(c)*(h*La)^(M-j). At every solution of the collocation equations a step of length h satisfies E(0)*y[n+1] = E(1)*y[n], and E(0)*Y[n,j] = E(tau[j])*y[n] at the collocation points. For positive nodes there is a bound B that depends on the nodes alone: a component with the rate la < 0 satisfies h*|la|*|y[n+1] - R*y[n]| <= B*|y[n]| with R = prod(1 - 1/c), however large h*|la| is. R is 0 for Radau nodes (stiff components are damped) and (-1)^M for Gauss nodes (they persist, and oscillate if M is odd).", "quantifier": "all models, combinations W, functions g, matrices La, distinct nodes, orders, grids, inputs, parameters and solutions of the equations; stiff components: all positive nodes, all models and all rates", "why_tests_cant": "symbolic in the matrix, the nodes and the model; tests solve a few problems on fixed grids, none of them stiff", "anchors": ["casadi_extras/collocation/collocation.py:CollocationScheme.__init__", "casadi_extras/collocation/collocation.py:CollocationScheme.eq", "casadi_extras/collocation/butcher.py:butcherTableuForCollocationPoints", "casadi_extras/collocation/polynomial.py:collocationPoints"]}
{"id": "C107", "title": "Matrices and index[...] as extra indices", "statement": "For an element a of a struct that is not of type 'symm' and an integer matrix m, s[a, m] has the pattern of m (the transposed one if s[a] is a column and m a row, or the other way round) and at each position the element of s[a] with this column-major number, counted from the end if negative; structural zeros of s[a] stay zeros. s[a, m] = v with distinct numbers and a value that fits changes exactly these elements, and s[a, m] then reads v. A number out of range raises. If the (first) shapestruct of a is the struct t, index[b] stands for the matrix t.i[b]. So for a column a and a part b of t, s[a, index[b]] reads what the cast t(s[a])[b] reads and s[a, index[b]] = v does what assigning to the cast and storing it does, unless b is a row: then index[b] gives a column while the cast gives a row. Without a shapestruct, where it is a number, and if t has no such part, index[b] raises and nothing is changed.", "quantifier": "all structs, elements, integer matrices with any pattern, shapestructs and their parts, contents of the object and values", "why_tests_cant": "quantifies over all patterns of the index matrix and over two structs at once; no test uses index[...] or a matrix as an index", "anchors": ["casadi_extras/structure3.py:delegation", "casadi_extras/structure3.py:performExtraIndex", "casadi_extras/structure3.py:IndexDelegater", "casadi_extras/structure3.py:Delegater", "casadi_extras/structure3.py:GetterDispatcher", "casadi_extras/structure3.py:SetterDispatcher"]}
{"id": "C108", "title": "Expressions and data together", "statement": "struct_SX(entries, data=D) (and DMStruct, MXStruct) with expressions in the entries and a column D of the right length gives the struct that it gives without data, whatever D contains; and since the struct takes the object D as its master, afterwards D holds the elements of the new struct. A D of another shape makes the constructor raise and stays as it is. If the expressions do not fit the entries, the constructor raises too, but D is partly overwritten.", "quantifier": "all lists of entries with (nested lists of) expressions, all matrices D", "why_tests_cant": "no test passes entries and data together; the effect on the caller's matrix is only visible through a second reference to it", "anchors": ["casadi_extras/structure3.py:MatrixStruct.__init__", "casadi_extras/structure3.py:SXStruct", "casadi_extras/structure3.py:DMStruct", "casadi_extras/structure3.py:MXStruct"]}
{"id": "C109", "title": "Attributes of prefixes and views", "statement": "An attribute that a Prefixer does not have itself is that of the matrix it stands for: p.name is the attribute of p() for p = s.prefix[...], and of the matrix a for the views s.repeated(a), s.product(t, a), s.squared(a) and s.squared_repeated(a).", "quantifier": "all structs, prefixes, matrices and attributes", "why_tests_cant": "the code delegates to the whole master, whatever the prefix is, while its comment says self(); no test uses an attribute of a Prefixer", "anchors": ["casadi_extras/structure3.py:Prefixer.__getattr__"]}
{"id": "C110", "title": "Accuracy of the trajectory of integrate when the root finder has a tolerance", "statement": "For a regular, solvable differential-algebraic model and small steps, a root finder that solves the equations of the integrator up to tol yields a trajectory whose distance from the exact solution at every time of interval n is at most a constant, which depends on the nodes only, times the sum of the discretisation error and of a multiple of (1 + t + n)*tol; its derivative and the algebraic states at the collocation points are as accurate. For contractive ordinary differential equations and Gauss or Radau nodes the distance is at most a constant times e0 + B*(t-t0)*H^M + B*H^(M+1) + (t-t0+n+1)*tol for steps of any length.", "quantifier": "all models with Lipschitz-invertible residual or contractive ordinary differential equations, grids, node lists without 0, inputs, tolerances, root finders with that tolerance, and times", "why_tests_cant": "the tests compare trajectories at single time points for single models, with the default tolerance of the root finder", "anchors": ["casadi_extras/collocation/collocation.py:CollocationIntegrator.integrate", "casadi_extras/collocation/collocation.py:CollocationScheme.piecewisePolyX", "casadi_extras/collocation/collocation.py:CollocationIntegrator.__init__"]}
{"id": "C111", "title": "Interpolation matrix in floating point", "statement": "With rounded operations of relative error at most u, and reductions in any order, interpolationMatrix of a basis with distinct nodes returns exact unit vectors at the nodes, and elsewhere entries whose relative error is at most 2E/(1-E), where E is ((1-u)^-(3n+1) - 1) times the Lebesgue function at the point, if E < 1. With u = 0 it is the exact matrix.", "quantifier": "all roundings (monotone, idempotent, relative error at most u), orders of summation and multiplication, lists of distinct nodes, and points", "why_tests_cant": "the tests compare with a tolerance at a few points of one basis; no test bounds the rounding errors near nodes, where the barycentric weights are large", "anchors": ["casadi_extras/collocation/polynomial.py:PolynomialBasis.interpolationMatrix", "casadi_extras/collocation/polynomial.py:PolynomialBasis.__init__"]}
{"id": "C112", "title": "Differentiation matrix in floating point", "statement": "With rounded operations the entries of D off the diagonal have a relative error of at most (1-u)^-(4n+1) - 1, the diagonal entries an error of at most (1-u)^-(5n) - 1 times the sum of the absolute values of the others, and each row sums up to zero within (1-u)^-(n-2) - 1 times that sum, however inaccurate the weights are.", "quantifier": "all roundings, orders of summation and multiplication, and lists of distinct nodes", "why_tests_cant": "rounding errors of a matrix cannot be tested for all nodes; the tests use one set of nodes and a tolerance", "anchors": ["casadi_extras/collocation/polynomial.py:PolynomialBasis.__init__"]}
{"id": "C113", "title": "Evaluation of piecewise polynomials in floating point", "statement": "With rounded operations pp(t) selects the same interval as in exact arithmetic; the computed local coordinate has a relative error of at most (1-u)^-3 - 1, stays within [0, 1] for points of the interval and is exact at both ends; the value is that of the interval's polynomial up to explicit bounds, and exactly the stored one at the ends of intervals if 0 and 1 are nodes.", "quantifier": "all roundings, orders of summation, with or without fused multiply-add, well-formed piecewise polynomials, points and modes", "why_tests_cant": "the tests evaluate one polynomial at a few points with a tolerance", "anchors": ["casadi_extras/collocation/piecewise_poly.py:PiecewisePoly.__call__", "casadi_extras/collocation/polynomial.py:PolynomialBasis.interpolationMatrix"]}
{"id": "C114", "title": "Discretization in floating point", "statement": "With rounded operations discretize(step) returns, for every interval, samples that begin with the left end, ascend, include the right end, and are at most step apart up to rounding errors, with the values of the polynomial up to rounding errors; the samples ascend from one interval to the next.", "quantifier": "all roundings, orders of summation, well-formed piecewise polynomials with floating point bounds, and steps for which the numbers of samples are floating point numbers", "why_tests_cant": "the last sample differs from the right end for special pairs of bounds only; the tests compare with a tolerance", "anchors": ["casadi_extras/collocation/piecewise_poly.py:PiecewisePoly.discretize"]}
{"id": "C115", "title": "Total error of evaluated trajectories", "statement": "Let the coefficients of a piecewise polynomial carry errors of at most eta. With rounded operations its values differ from those of the exact one at most by Lambda*eta plus rounding errors proportional to the largest coefficient, where Lambda is the Lebesgue constant of the nodes. For the models, grids and root finders of C110 (also for contractive models and steps of any length) the computed values of the trajectory that integrate returns differ from the exact solution at most by the bound of C110 (discretisation and tolerance) plus these two terms.", "quantifier": "all roundings, orders of summation, models, grids, inputs, tolerances, errors of the coefficients, and times", "why_tests_cant": "the exact solution and the sources of error are not separable by tests, which compare with a tolerance at a few times", "anchors": ["casadi_extras/collocation/piecewise_poly.py:PiecewisePoly.__call__", "casadi_extras/collocation/collocation.py:CollocationIntegrator.integrate", "casadi_extras/collocation/collocation.py:CollocationScheme.piecewisePolyX"]}
{"id": "C116", "title": "Butcher tableau and Lagrange polynomials in floating point", "statement": "With rounded operations the coefficients of the Lagrange polynomials that PolynomialBasis and butcherTableuForCollocationPoints compute for n distinct nodes differ from the exact ones at most by (1-u)^-(4(n-1)) - 1 times the coefficients of the product of (x + |tau_r|)/|tau_j - tau_r| over the other nodes; the entries of A and b differ from the exact ones at most by (1-u)^-(6n-1) - 1 times the integral of this product from 0 to |tau_i| and to 1. The row of A of a node 1 is equal to b, and the row of a node 0 vanishes, without any error.", "quantifier": "all roundings, orders of the additions in np.convolve, and lists of distinct nodes", "why_tests_cant": "the errors depend on the nodes and on the order of the additions; the tests compare tableaux of a few orders with a tolerance", "anchors": ["casadi_extras/collocation/butcher.py:butcherTableuForCollocationPoints", "casadi_extras/collocation/polynomial.py:PolynomialBasis.__init__"]}
{"id": "C117", "title": "Grids of Pdq and cheb in floating point", "statement": "With rounded operations Pdq(t) either raises AssertionError, exactly if the rounded points of some interval do not ascend, or returns a grid that begins every interval exactly at t[i], ascends within the intervals, ends at t[-1], and is close to the exact grid; its differentiation matrix holds the derivatives of the Lagrange polynomials of the computed points up to (1-u)^-(4n+1) - 1 off the diagonal and zeros outside the blocks. cheb(N, t0, tf) begins at t0 and ends at tf. The constructor succeeds for every ascending grid.", "quantifier": "all roundings, nodes in [0, 1] and lists of interval bounds", "why_tests_cant": "whether a rounded end is equal to the given one depends on the last bit; the tests use intervals from 0 to small integers", "anchors": ["casadi_extras/collocation/collocation.py:Pdq.__init__", "casadi_extras/collocation/collocation.py:Pdq.tf", "casadi_extras/collocation/polynomial.py:cheb"]}
{"id": "C118", "title": "Collocation scheme with rounded coefficients", "statement": "With interval lengths, Butcher tableau, integration matrices and collocation times computed with rounding, CollocationScheme is constructed under the same conditions and with the same variables. For a regular model that is Lipschitz continuous in time, states, derivatives and algebraic states that solve its equations up to a tolerance differ from those of the exact scheme, and its states from the exact solution of the model, at most by explicit bounds: the convergence bound of C88 plus a Gronwall factor times terms proportional to the unit roundoff, the tableau errors of C116 and the tolerance. The last collocation time for a node 1 need not be the end of the interval.", "quantifier": "all roundings, models, grids, nodes in [0, 1], assignments and tolerances", "why_tests_cant": "tests compare with loose tolerances for a few grids; nothing separates rounding, discretisation and solver errors", "anchors": ["casadi_extras/collocation/collocation.py:CollocationScheme.__init__", "casadi_extras/collocation/butcher.py:butcherTableuForCollocationMethod"]}
{"id": "C119", "title": "Quadratures of inexact solutions and of the rounded scheme", "statement": "The quadratures q (grid points) and Q (collocation points) depend Lipschitz continuously on the states and algebraic states at the collocation points: for assignments with the same inputs and parameters their differences are bounded by the elapsed time times the norm of the weights times the difference of the integrands. Hence the quadratures of assignments that solve the equations of a regular model up to a tolerance, or that belong to the scheme with rounded coefficients, differ from those of the exact scheme at most by explicit bounds; and those of the rounded scheme from the exact integrals along an exact solution at most by the bound of C88 plus terms proportional to the unit roundoff, the tableau errors and the tolerance. For contractive ordinary differential equations, Gauss or Radau nodes and steps of any length the quadratures q and the output qf of the integrator differ from the exact integrals at most by a constant times (t-t0)*(Lq*(e0 + B*(T-t0)*H^M + B*H^(M+1) + (T-t0+N+1)*tol) + Bq*H^M).", "quantifier": "all models with Lipschitz continuous quadrature expression, grids, nodes in [0, 1], assignments, tolerances and roundings", "why_tests_cant": "tests integrate one quadrature with a loose tolerance; nothing bounds the effect of the solver or of rounding", "anchors": ["casadi_extras/collocation/collocation.py:CollocationScheme.__init__", "casadi_extras/collocation/collocation.py:CollocationScheme.q", "casadi_extras/collocation/collocation.py:CollocationScheme.Q"]}
{"id": "C120", "title": "Flat getter with dicts and callables", "statement": "s.f[index] returns a list of integers. True for every index without {}, nesteddict, sets and callables; and for every index without callables the result is a list of integers l exactly if s.i[index] is a nested list of dense index matrices with the elements l. False in general: s.f[{}, rest] and s.f[{names}, rest] are dicts from the names to the values of the traversals, which are not flattened; a callable gets the result for the rest of the index before it is flattened, and vec is applied to its value (TypeError for a number).", "quantifier": "all structs, all power indices, all callables", "why_tests_cant": "tests use s.f with names, integers and slices only", "anchors": ["casadi_extras/structure3.py:vec", "casadi_extras/structure3.py:CasadiStructure.FlatIndexDispatcher", "casadi_extras/structure3.py:Dispatcher.callableOuter", "casadi_extras/structure3.py:Structure.traverseByPowerIndex"]}
{"id": "C121", "title": "Calls and attributes that cannot succeed", "statement": "Python binds the arguments of a call exactly if there are not more positional arguments than parameters, every keyword names one of the remaining parameters and every remaining parameter without default gets one; otherwise TypeError. Hence a CollocationSimulator can never be constructed (order is missing in the call of CollocationScheme) and simulate can never return (SystemTrajectory() without arguments), for all arguments; the calls of CollocationIntegrator and collocationIntegrator bind every argument to the parameter of the same name. Of the properties of CollocationScheme exactly pdq raises AttributeError.", "quantifier": "all arguments, models, grids and orders; all signatures and calls", "why_tests_cant": "the test of the simulator is disabled (inside a string literal)", "anchors": ["casadi_extras/collocation/collocation.py:CollocationSimulator.__init__", "casadi_extras/collocation/collocation.py:CollocationSimulator.simulate", "casadi_extras/collocation/collocation.py:CollocationScheme.pdq", "casadi_extras/collocation/collocation.py:collocationIntegrator"]}
{"id": "C122", "title": "Packing of collocation variables in structs", "statement": "The structs in collocation.py and dae_model.py pack their expressions as the numeric code assumes: struct_MX([entry(n, expr=e), ...]) with distinct names has as .cat the elements of the expressions column by column, one after the other, and s[n] is e (with a repeated name it raises); var(w) for a column w of the right size reads as entry n the matrix whose elements follow those of the entries before it. In CollocationIntegrator, var.cat equals w under the assignment used for the residual, var(w)['x'], ['K'], ['Z'] are x, K, Z under this assignment, and w0 after its three assignments has the initial point as .cat; parallel can always build its structs.", "quantifier": "all lists of named expressions, all values of the symbols, all vectors of unknowns; all integrators of valid models", "why_tests_cant": "tests see only the results of a few integrations", "anchors": ["casadi_extras/collocation/collocation.py:CollocationScheme.combine", "casadi_extras/collocation/collocation.py:CollocationIntegrator.__init__", "casadi_extras/dae_model.py:parallel", "casadi_extras/structure3.py:MXVeccatStruct", "casadi_extras/structure3.py:MXStruct", "casadi_extras/structure3.py:VertsplitStructure.buildMap"]}
{"id": "C123", "title": "Differentiation in floating point", "statement": "With rounding errors, PiecewisePoly.derivative() succeeds for every well-formed object and returns one on the same intervals; its coefficients are the derivatives at the nodes of the polynomials that interpolate the data, with an error of at most gamma_(6n+2) * sum over k != j of |D[j,k]|*(|c[k]| + |c[j]|) / h. Data with errors of at most eta give coefficients with errors of at most (B*eta + 2*gamma*B*C)/h, and the values of the derivative, in both modes, differ from the exact ones at most by Lambda times this plus the rounding errors of the evaluation. Pdq.derivative(y) on a computed grid returns the derivatives at the computed points with an error bound that does not depend on the number of intervals. Without rounding the results are the exact ones. The derivative of a constant need not be exactly zero: with doubles and fused multiply-add it can be -2^-52 for the constant 5.", "quantifier": "all roundings with relative error u and all orders of the reductions, all nodes, intervals, data, grids", "why_tests_cant": "tests compare derivatives with a tolerance on a few functions", "anchors": ["casadi_extras/collocation/piecewise_poly.py:PiecewisePoly.derivative", "casadi_extras/collocation/collocation.py:Pdq.derivative", "casadi_extras/collocation/polynomial.py:PolynomialBasis.__init__"]}
{"id": "C124", "title": "Interpolation of grid functions in floating point", "statement": "With rounding errors, Pdq.interpolator('both') and Pdq.interpolator('right') on a computed grid with ascending points succeed for every matrix with the right number of columns and every nonempty list of query points. In each interval the values differ from those of the polynomial through the data at the computed points at most by a bound relative to the sum of |x[r,k]*l_k(t)| that contains only u, the number of points per interval and the Lebesgue function, not the number of intervals or the distance of the points. At a collocation point the result is exactly the given value if this is a floating point number, also where the computed last point is not t[-1]. Without rounding the result is exact. The option 'left' raises IndexError in the last interval; wrong shapes and unknown options raise ValueError.", "quantifier": "all roundings with relative error u and all orders of the reductions, all schemes, grids, data and query points", "why_tests_cant": "a test evaluates a few points and compares with a tolerance", "anchors": ["casadi_extras/collocation/collocation.py:Pdq.interpolator", "casadi_extras/collocation/collocation.py:_PdqInterpolator.__call__", "casadi_extras/collocation/polynomial.py:PolynomialBasis.interpolationMatrix"]}
{"id": "C125", "title": "Coefficients of composed polynomials in floating point", "statement": "With rounding errors, PolynomialBasis.compose(c) succeeds for distinct nodes and at most as many columns as nodes; the coefficients of row r differ from those of sum_j c[r,j]*l_j at most by gamma_(4(n-1)+1+cols) times those of sum_j |c[r,j]| * prod (x + |tau_k|)/|tau_j - tau_k|, and the values by Horner's rule accordingly; more columns raise IndexError. PiecewisePoly.poly(n) either returns or raises ValueError; whenever it returns, coefficients and values are those of the interpolating polynomial in the local time, with the same kind of bound, and it returns if the leading coefficients exceed their rounding errors. The claim that it returns for data of full degree is false: with doubles, two different values at two nodes can give the computed leading coefficient 0 and ValueError; conversely for the constant 1 at the nodes 0, 1/4, 1 it returns a polynomial of degree two, where exact arithmetic raises.", "quantifier": "all roundings with relative error u, all orders of the reductions, any power function with bounded relative error, all nodes, data, intervals", "why_tests_cant": "whether an exception is raised depends on the last bit; a test sees only a few inputs", "anchors": ["casadi_extras/collocation/polynomial.py:PolynomialBasis.compose", "casadi_extras/collocation/piecewise_poly.py:PiecewisePoly.poly"]}
{"id": "C126", "title": "Integration of grid functions in floating point", "statement": "With rounding errors, and a linear solver whose residuals are at most gamma_b times the sums of the absolute values of the terms of each equation, whenever Pdq.integral(dy) returns, on each interval the result is the rounded sum of the value at the beginning and the values of a polynomial P that vanishes there and whose derivative has the given values up to gamma_(5*order+5+b) * sum_{k!=j} |l_k'(x_j)| (|P(x_k)| + |P(x_j)|); the result differs from the sum of the exact integrals of the polynomials that interpolate dy on the intervals at most by these residuals times the absolute integrals of the Lagrange polynomials, plus one relative rounding error per interval. It returns exactly for enough columns, if the solver succeeds for nonsingular matrices and gamma_(5*order+5) times the condition of the equations is below 1. Without rounding it is the sum of the integrals.", "quantifier": "all roundings with relative error u, all orders of the reductions, all grids the constructor accepts, all solvers with bounded residuals, all data", "why_tests_cant": "rounding errors depend on grid and data, the solver is replaceable; a test sees one solver on a few inputs", "anchors": ["casadi_extras/collocation/collocation.py:Pdq.integral"]}
{"id": "C127", "title": "Barycentric and polynomial interpolator in floating point", "statement": "With rounding errors: barycentricInterpolator(x)(u, xq) succeeds for distinct nodes exactly for one column of u per node (otherwise ValueError); the results differ from the values of the interpolating polynomials at most by rounding errors relative to the sum of the absolute terms of the Lagrange form, and are exactly the data at a node. polynomialInterpolator(x)(u, xx), with a linear solver whose residuals are at most gamma_b times the sums of the absolute values of the terms, returns inner products of u with weights W that solve the Vandermonde equations up to gamma_(pow+b) sum_k |x_k|^i |W_k| + gamma_pow |s|^i, are bounded by the Lagrange polynomials if gamma times the condition is below 1, and the results differ from the interpolating polynomial P at most by sum_i |coefficient i of P| times these residuals plus gamma_n sum |u_k W_k|. If the errors of the powers are small in comparison to the condition, and the solver succeeds for nonsingular matrices, it succeeds exactly for one column per node. Without rounding both return the value of the interpolating polynomial.", "quantifier": "all roundings with relative error u, all orders of the reductions, all powers with bounded relative error, all solvers with bounded residuals, all nodes, data and query points", "why_tests_cant": "rounding errors depend on nodes, data and the solver; a test sees one implementation on a few inputs", "anchors": ["casadi_extras/collocation/polynomial.py:barycentricInterpolator", "casadi_extras/collocation/polynomial.py:polynomialInterpolator"]}
{"id": "C128", "title": "Integer arrays", "statement": "PolynomialBasis, polynomialInterpolator and PiecewisePoly.poly give the same result for integer arrays of nodes or interval bounds as for the equal floating point numbers. (False of the code: products and powers are computed in 64-bit integers and wrap around, and an integer array cannot be divided in place. True if the products of differences of nodes, the powers of the nodes, or the powers of the interval length fit into 64 bits; in particular for up to 21 consecutive integers. For the nodes 0..21 the derivative of x^2 at 0 is above 19 instead of 0; for 131 or more consecutive integers all barycentric weights are divisions by zero; for the nodes 0..16 polynomialInterpolator does not reproduce x^16 anywhere but at 0..15; for an interval of length 10 and 20 nodes poly is wrong everywhere but at 0; for a single node and integer coefficients poly raises TypeError.)", "quantifier": "all integer nodes, interval bounds, data, query points and linear solvers", "why_tests_cant": "tests use few nodes, and mostly floating point arrays; overflow is silent", "anchors": ["casadi_extras/collocation/polynomial.py:PolynomialBasis", "casadi_extras/collocation/polynomial.py:polynomialInterpolator", "casadi_extras/collocation/piecewise_poly.py:PiecewisePoly.poly"]}
{"id": "C129", "title": "Lists of names", "statement": "s[..., ['x', 'y'], ...] is [s[..., 'x', ...], s[..., 'y', ...]], and assigning a list [v, w] to it performs s[..., 'x', ...] = v and s[..., 'y', ...] = w. (False of the code: the traversal goes on with the struct and not with its entries. True at the end of the index for entries without repeat and without type symm, at any depth, with a value that is not a list written to all entries; s.i and s.f agree for all entries without repeat. A list with the name of a repeated entry always raises, an integer, slice or unknown name after the list always raises, and a symm entry is read as its upper triangle.)", "quantifier": "all structs, lists of entries, contents, values and further indices", "why_tests_cant": "tests use single names; for plain entries the result is the same", "anchors": ["casadi_extras/structure3.py:Structure.traverseByPowerIndex", "casadi_extras/structure3.py:GetterDispatcher"]}
{"id": "C130", "title": "Changes of variables and of time in the collocation scheme", "statement": "If the solutions of one model follow from those of another by x(t) = T x'(a t + b) + g(t), q(t) = W q'(a t + b) + G(t) with matrices T, W (of any shape) and polynomials g, G of a degree up to the order, and by selecting algebraic states, inputs and parameters, then the solutions of the collocation equations of the first on a grid follow in the same way from those of the second on the transformed grid, with times, states and quadratures at the collocation points. Consequences: the equations of a model that does not depend on time are the same on a shifted grid; replacing time by a state with derivative 1 changes nothing; the equations of two models side by side are those of the two models.", "quantifier": "all pairs of models (implicit or semi-explicit, with algebraic states, inputs, parameters, quadratures), all grids, orders, nodes without repetition, all changes and all values of the variables", "why_tests_cant": "a test has one model; the claim relates two arbitrary models", "anchors": ["casadi_extras/collocation/collocation.py:CollocationScheme.__init__"]}
{"id": "C131", "title": "Sensitivities", "statement": "If the variables of the collocation scheme depend differentiably on a parameter and solve the collocation equations of a model for all parameters near one, then the variables and their derivatives solve the collocation equations of the tangent model (the model together with its linearisation); states at the collocation points and quadratures of the tangent model are those of the model and their derivatives. Differentiation with respect to initial values, inputs or parameters and collocation can be exchanged.", "quantifier": "all models with a tangent model, all grids, orders, nodes, curves of values of the variables", "why_tests_cant": "a test compares numbers with finite differences; the claim is an identity for all models and curves", "anchors": ["casadi_extras/collocation/collocation.py:CollocationScheme.__init__"]}
{"id": "C132", "title": "Differentiable dependence on the data", "statement": "Solutions of the collocation equations are differentiable in the initial values, inputs and parameters: if these depend differentiably on a parameter, then so do the states, derivatives, algebraic variables and quadratures of a solution, without assuming that the solution is even continuous in the parameter, and a solution of the collocation equations of the tangent model consists of the solution and its derivatives. This holds for regular models (differential-algebraic ones included) with small steps, where the collocation equations of the tangent model have a solution if they are linear in the derivatives, for contractive differential equations with Gauss or Radau nodes and steps of any length (states at the grid points), and for the outputs of the integrator with any root finder.", "quantifier": "all regular models with small steps; all contractive differential equations with any steps; all grids, orders, nodes; all root finders", "why_tests_cant": "a test compares finite differences with numbers at a few points; existence of a derivative is not testable", "anchors": ["casadi_extras/collocation/collocation.py:CollocationScheme.__init__", "casadi_extras/collocation/collocation.py:CollocationIntegrator"]}
{"id": "C133", "title": "Symplecticity", "statement": "If a bilinear form of two variations of a solution does not change along the solutions of a model with fixed inputs and parameters (for a Hamiltonian model the symplectic form, for a divergence-free planar model the area), then with Gauss nodes the collocation equations preserve it exactly: the form of the derivatives of two families of solutions of the collocation equations through the same solution has the same value at all grid points, and so has the form of the derivatives of the integrator's outputs with respect to the initial state, for any root finder. With other nodes this fails: one step with the node 1 halves the area for the harmonic oscillator.", "quantifier": "all models (differential-algebraic ones included), forms, grids, orders, families of solutions; for the integrator all regular models with small steps", "why_tests_cant": "a test could only compare a finite difference determinant with 1 for one model and one step", "anchors": ["casadi_extras/collocation/collocation.py:CollocationScheme.__init__", "casadi_extras/collocation/collocation.py:CollocationIntegrator", "casadi_extras/collocation/butcher.py:butcherTableuForCollocationPoints"]}
{"id": "C134", "title": "Exact gradients by the adjoint equations", "statement": "An adjoint model adds to the states of a model as many adjoint states whose product with any variation of the solution changes at the rate of its quadratures times the variations of inputs and parameters (for x' = f(x,u,p,t): adjoint -J'lambda and quadratures B'lambda, C'lambda). With Gauss nodes, a solution of the collocation equations of the adjoint model gives the exact derivatives of the solutions of the collocation equations of the model: at every grid point lambda[n]'dx[n] = lambda[0]'dx[0] + sum over the intervals of the increments of the quadratures times du + q[n]'dp. So differentiation and discretisation commute. For regular models and small steps the derivatives exist, and one call of the integrator of the adjoint model gives the gradient of the integrator's final state, for any root finder. With other nodes this fails: one step with the node 1 changes the product from 1 to 4/3.", "quantifier": "all models (differential-algebraic ones included), adjoint models, grids, orders, families of solutions, both layouts of the parameters; for the integrator all regular models without parameters and small steps", "why_tests_cant": "a test could only compare one gradient with finite differences up to a tolerance that hides the difference between the exact gradient of the discretisation and an approximation of the gradient of the solution", "anchors": ["casadi_extras/collocation/collocation.py:CollocationScheme.__init__", "casadi_extras/collocation/collocation.py:CollocationIntegrator", "casadi_extras/collocation/butcher.py:butcherTableuForCollocationPoints"]}
{"id": "C135", "title": "Texts of prefixes", "statement": "The text of a prefix s.prefix[...] determines its indices (names, numbers, slices, lists, Ellipsis, {}, sets, index[...] and indexf[...], if names contain no quotes), the description of the object and the text of its struct, hence by C93 its entries up to patterns and the orders of nested structs; conversely these determine the text. The text of s.prefix determines description and struct and is never the text of a prefix; the texts of index[...] and indexf[...] determine which of the two it is and the indices. The text does not show to what a prefix casts: the view s.repeated(a) and the prefix with the same object and indices have the same text, but the first casts to a and the second to a list.", "quantifier": "all prefixes, indices and structs; for the converse of C93 well-formed structs with names without quotes, braces and commas", "why_tests_cant": "a test compares the text of one prefix with a string; that no two different prefixes share a text concerns all pairs", "anchors": ["casadi_extras/structure3.py:Prefixer.__str__", "casadi_extras/structure3.py:PrefixConstructor.__str__", "casadi_extras/structure3.py:Delegater.__str__", "casadi_extras/structure3.py:Prefixer.cast"]}
{"id": "C136", "title": "Optimality conditions of discretised optimal control problems", "statement": "With Gauss nodes and small steps, the derivative of a cost Phi(x_N, u) along solutions of the collocation equations with fixed initial states and parameters is, for the input k of the interval m, the increment of the k-th quadrature of the adjoint model over the interval plus the partial derivative of the cost, where the final adjoint state is the gradient of the cost. For inputs that minimise the cost over a convex set, this gradient satisfies the variational inequality; for inputs between bounds (possibly infinite) it is not negative below the upper bound and not positive above the lower bound, so 0 between the bounds. For explicit models x' = f(x,u,p,t) the collocation equations of the adjoint model always have a solution with a given final adjoint state if the steps are small, so every minimiser satisfies the discrete minimum principle: optimising the discretised problem and discretising the optimality conditions give the same equations.", "quantifier": "all models (for existence: explicit ones) that are regular, all grids with small steps, orders, both layouts of the parameters, differentiable costs, convex sets and bounds", "why_tests_cant": "a test can check the conditions for one numerical solution of one problem up to a tolerance", "anchors": ["casadi_extras/collocation/collocation.py:CollocationScheme.__init__", "casadi_extras/collocation/butcher.py:butcherTableuForCollocationPoints"]}
{"id": "C137", "title": "Symmetric nodes", "statement": "For nodes that are symmetric in [0,1] the order of the weights is even: if they integrate all polynomials of degree below an odd number k exactly, then also those of degree k. An odd number M of symmetric nodes therefore has order at least M+1 (C91, C92). If combinations y of the states obey linear differential equations with a matrix La, and B*La + La'*B = 0, then every step with symmetric nodes preserves y'By (if the step determines y); the rest of the model may be nonlinear. So the trapezoidal rule keeps the energy of an oscillator, although it is not symplectic (C75). Symmetry is necessary for time reversal (C76): for x' = t the reversed variables solve the equations on the reversed grid only for symmetric nodes.", "quantifier": "all symmetric nodes, linear parts of all models, grids, forms; for the last part all nodes", "why_tests_cant": "tests use one set of nodes; evenness and conservation are statements about all of them", "anchors": ["casadi_extras/collocation/butcher.py:butcherTableuForCollocationPoints", "casadi_extras/collocation/collocation.py:CollocationScheme.__init__"]}
{"id": "C138", "title": "The integrator as a flow", "statement": "For models of index one and small steps (forwards or backwards in time) the equations of the integrator have exactly one root, so its outputs depend neither on the root finder nor on the guess of the algebraic states. Integrating over a grid gives the same as integrating over its first m intervals and then, from the final state, over the others with the remaining inputs: the columns of x, K, X and Z are those of the two parts and the quadratures add up. With symmetric nodes, integrating back from the final state over the reversed grid with the inputs in reverse order returns to the initial state through the same states, and the quadratures change sign. With other nodes it does not: the node 1 takes x' = -x from 1 in half a unit of time forwards and backwards to 4/3. For contractive models with Gauss or Radau nodes the result is determined, and the parts fit together, for steps of any length.", "quantifier": "all models of index one (for existence of the root: solvable ones) and grids with small steps of either sign, or contractive models and increasing grids, orders, inputs, parameters, root finders, splittings; symmetric nodes for the way back", "why_tests_cant": "tests compare a few runs up to the tolerance of the root finder", "anchors": ["casadi_extras/collocation/collocation.py:CollocationIntegrator", "casadi_extras/collocation/collocation.py:CollocationScheme.__init__"]}
{"id": "C139", "title": "Identities of symbols and repeat_param", "statement": "For the same values of the variables all attributes of a scheme (tc, X, U, the collocation and continuity equations, quad, q, Q) have the same values, whatever identities the created symbols have and whether or not repeat_param is set. The equations with a parameter column for every collocation point have the same solutions as those with one column: every solution of one is a solution of the other with the same values, because the additional equations make the columns equal. There are np*(N*M-1) additional unknowns and as many additional equations.", "quantifier": "all models, grids, orders, nodes and values, both layouts", "why_tests_cant": "tests construct the scheme once and compare a few numbers", "anchors": ["casadi_extras/collocation/collocation.py:CollocationScheme.__init__"]}
{"id": "C140", "title": "Optimal controls computed with the collocation scheme", "statement": "A decision (inputs on the intervals, parameters, initial states) is chosen to minimise a cost under constraints, both Lipschitz continuous (constant Lambda) in the states at the grid points and the final quadratures, with the collocation equations in place of the model. With an explicit error E, of the order of the steps to the power of the number of nodes: the cost of the computed solution and the cost of the exact solution with the computed decision differ at most by Lambda*E; this exact solution violates the constraints at most by Lambda*E; no decision whose exact solution satisfies the constraints with the margin Lambda*E is better by more than 2*Lambda*E. This holds for models of index one and small steps, and for contractive models with Gauss or Radau nodes for all steps, with one constant however stiff the model is. For regular models and small steps, and for contractive ordinary differential equations that are Lipschitz continuous in the data with steps of any length, the solutions of the collocation equations (states and quadratures, with small steps also derivatives and algebraic states) depend continuously on the decision, and a problem with decisions from a compact set that has a feasible solution has an optimal one. For regular models with small steps and contractive ordinary differential equations with any steps the bounds hold also for the result of a solver that solves the equations up to tol, violates the constraints and misses the least cost at most by eta, with E increased by a constant times (T + N)*tol and eta added.", "quantifier": "all models of index one with small steps or contractive models with any steps, all grids, orders, sets of decisions, Lipschitz continuous costs and any number of constraints", "why_tests_cant": "a test can solve one problem and compare with one known solution up to a tolerance", "anchors": ["casadi_extras/collocation/collocation.py:CollocationScheme.__init__", "casadi_extras/collocation/butcher.py:butcherTableuForCollocationPoints"]}
{"id": "C141", "title": "Dependence of solutions on inputs and parameters", "statement": "For models of index one whose equations are Lipschitz continuous also in the inputs and parameters, and small steps: if two assignments satisfy the equations of the scheme up to tolerances, then their states at a grid point differ at most by exp(Lambda*(t-t0)) times the difference of the initial states plus a constant times the integral up to that grid point of the differences of inputs and parameters, plus tolerances. So changes of the inputs in later intervals have no influence, and short changes have little. Derivatives, states and algebraic states at the collocation points and quadratures obey corresponding bounds, and so do the outputs of two calls of the integrator. For ordinary differential equations that are contractive with respect to a positive definite form, and Gauss or Radau nodes, there is one constant for all of them and for steps of any length, for the states at grid and collocation points and for Lipschitz continuous quadratures: nothing grows exponentially, and Lipschitz constants in the states do not matter.", "quantifier": "all models of index one with Lipschitz continuous equations and grids with small steps, or contractive ordinary differential equations and all increasing grids; orders, nodes, inputs, parameters, tolerances, both layouts of the parameters", "why_tests_cant": "tests compare a few inputs; the bound holds for all of them at the same time", "anchors": ["casadi_extras/collocation/collocation.py:CollocationScheme.__init__", "casadi_extras/collocation/collocation.py:CollocationIntegrator"]}
{"id": "C142", "title": "Writing to unpickled structs and prefixes", "statement": "An unpickled DM struct can be written to like the original one: every sequence of assignments, with any power indices and values, has the same outcomes and leaves the same data. This holds for structs without entries of type 'symm'; for all structs, assignments that succeed on the unpickled object succeed with the same result on the original one. It is false for entries of type 'symm': __getstate__ of the entry omits originalsparsity, so after pickling every assignment of a matrix that is not a scalar raises. An unpickled Prefixer has the same prefix and castmaster, reads, casts and delegates attributes the same, and writes like its object.", "quantifier": "all well-formed structs, data, other objects in the same pickle, sequences of assignments, power indices, values, prefixes", "why_tests_cant": "a test unpickles one struct and reads it; the loss of originalsparsity shows only in later writes to one type of entry", "anchors": ["casadi_extras/structure3.py:DMStruct.__getstate__", "casadi_extras/structure3.py:CasadiStructEntry.__getstate__", "casadi_extras/structure3.py:SetterDispatcher.__call__", "casadi_extras/structure3.py:Prefixer.__getstate__"]}
{"id": "C143", "title": "Expressions for symmetric entries", "statement": "struct_SX and struct_MX accept entry(k,expr=e,type='symm') for a symmetric matrix e (or nested lists of them), and s[k] reads e. True of struct_SX, next to any other entries; of a matrix that is not symmetric the upper triangle counts. False of struct_MX: an assignment compares the pattern of the expression with the stored upper triangle, so the constructor succeeds exactly if all expressions of type 'symm' are upper triangular, an assignment exactly if the expression has the pattern of the upper triangle (otherwise it raises and changes nothing), s[k] then reads the symmetric matrix with this upper triangle, and s[k] = s[k] raises unless the pattern is diagonal.", "quantifier": "all lists of entries with expressions (nested lists of any depth), orders, square patterns, values, and all reachable states", "why_tests_cant": "a test of symm entries uses one class of struct; the combination with struct_MX needs its own reading of two checks", "anchors": ["casadi_extras/structure3.py:MXVeccatStruct.__setitem__", "casadi_extras/structure3.py:MXVeccatStruct.__init__", "casadi_extras/structure3.py:MatrixStruct.__init__", "casadi_extras/structure3.py:CasadiStructEntry.__init__", "casadi_extras/structure3.py:SetterDispatcher.__call__"]}
{"id": "C144", "title": "Copying between struct_MX objects", "statement": "s[..., rest] = L and s[{}, rest] = d on a struct_MX, at any nested struct, perform the assignments to the single entries one after another up to the first exception. If all expressions of a struct_MX s are assigned, s[...] and s[{}] can be read, and assigning the result to any struct_MX t of the same layout, complete or not, makes t equal to s in every stored expression; t[name] = s[name] copies the expressions of this entry and leaves the others. True of entries that are not of type 'symm'. False in general: if an entry of type 'symm' has an element above the diagonal, s[...] can be read, but assigning the result raises for every t, also for s itself (see C143); in all other cases the copy succeeds.", "quantifier": "all well-formed structs with repeats and nested structs, reachable states of both objects, lists and dicts of payloads", "why_tests_cant": "tests assign single entries of struct_MX; the copy has to hold for every layout and state", "anchors": ["casadi_extras/structure3.py:MXVeccatStruct.__setitem__", "casadi_extras/structure3.py:MXVeccatStruct.master", "casadi_extras/structure3.py:Structure.traverseByPowerIndex"]}
{"id": "C145", "title": "Saving structs to files", "statement": "struct_load(filename) after s.save(filename) returns an object with the same layout and data as s. False of the code: save and struct_load use the name file, which the module does not define; unless CasADi or the interpreter provide it (Python 3 does not), every call of either raises NameError, nothing is written and no state changes; classes other than CasadiStructure and DMStruct have no save. With file as in Python 2 the claim holds after any sequence of saves, also for objects that share structs (which one pickle of a list mixes up, C56), and saving under other names does not matter.", "quantifier": "all valid structs and DM structs, names of files, sequences of saves, contents of other files, earlier pickling, names exported by CasADi", "why_tests_cant": "no test saves anything; a test with one struct and one file cannot show what other saves and shared structs do", "anchors": ["casadi_extras/structure3.py:CasadiStructure.save", "casadi_extras/structure3.py:DMStruct.save", "casadi_extras/structure3.py:struct_load"]}
