# DESIGN: a Lean 4 model of casadi_extras

`/repo` is modelled function by function in `lean/Verif`. Two halves:

* `Verif/Num/*`: numerics (`collocation/*.py`, `system_trajectory.py`), DAE models, inequalities;
* `Verif/Struct/*`: the struct framework (`structure3.py`).

Each half has `Model*` files (definitions citing file:lines of `/repo`), lemma files, and `Props*` files
that contain only the small specifications, the property theorems and the non-vacuity examples.

## Modelling decisions

* **Numbers.** The numeric code is modelled over an arbitrary field `K` (ordered where the code compares),
  i.e. in exact arithmetic. NaN and inf propagation are NOT modelled, floating point rounding only in the files `Num/Float*.lean`, where bases, grids, schemes, Butcher tableaux and
  piecewise polynomials are modelled once more (C111 to C119, C123 to C127). `x/0` is `0` in a Lean field:
  every theorem that meets a division carries the hypothesis (distinct nodes, ascending grid) that excludes it,
  and where the code itself checks that hypothesis this is a theorem.
* **poly1d** is modelled as numpy does it: list of coefficients, highest degree first, leading zeros trimmed,
  zero polynomial `[0]`; multiplication is convolution, `polyint`, Horner evaluation. The specification side is
  Mathlib's `Polynomial K`.
* **Matrices** are `{rows, cols, e : Nat -> Nat -> K}`; only entries inside the shape have meaning, and every place where
  Python would raise (index out of bounds, shape mismatch, assert) is an explicit error branch (`Except PyErr`).
* **CasADi symbolic expressions** (MX) are identified with their values under an assignment of the symbols
  (denotational reading): the collocation scheme is a function from values of x,K,Z,u,p to values.
* **Struct framework.** Structs are a mutual inductive type; canonical indices are lists of names/integers;
  traversal is the same recursion as in the code; the dispatcher is a parameter; assignment runs in a state+exception monad in
  which a raised exception does NOT undo earlier writes (as in Python).
* **External code as parameters / assumed behaviour** (recorded below in the trusted base): numpy primitives, CasADi's dense matrix
  get/set, `vertcat`, `vertsplit`, linear solvers, the rootfinder, pickle.

## Plan per property

| id | what is modelled | how it is proved |
|----|------------------|------------------|
| C01 | `PolynomialBasis.__init__` poly loop | poly1d model = `Lagrange.basis`, then Mathlib's evaluation/degree lemmas |
| C02 | `interpolationMatrix` both branches | barycentric formula = Lagrange basis at the point; interpolation uniqueness |
| C03 | `D` loop | derivative of Lagrange basis at nodes via nodal polynomial; diagonal by row sums |
| C04 | `compose` | poly1d sum, uniqueness of interpolation |
| C05 | `polynomialInterpolator` with a correct linear solver as parameter | Vandermonde matrix nonsingular |
| C06 | `collocationPoints` over the reals | strict antitonicity of cos on [0,pi] |
| C07 | `cheb` | C03 + affine substitution; N=0 counterexample to the docstring |
| C08-C10 | `butcherTableuForCollocationPoints` (`polyint`, Horner) | antiderivative is linear; interpolation uniqueness; division by node polynomial |
| C11 | `ButcherTableau.__init__` on arrays with dynamic shapes | case analysis |
| C12-C16 | `PiecewisePoly` (searchsorted, clip, arange) | counting on sorted lists; C02, C03; poly1d lengths; ceiling arithmetic |
| C17-C22 | `Pdq`, `_PdqInterpolator` | induction over intervals, block matrix lemma; concrete counterexamples for the broken modes |
| C23 | `SystemTrajectory` | from C21 |
| C24-C31 | `CollocationScheme`, `CollocationIntegrator` as functions of variable values; kron/mtimes as in CasADi; rootfinder as parameter | div/mod index lemmas; C08; C03 |
| C32-C34 | `Dae`, `SemiExplicitDae`, `ImplicitDae`, `parallel` with abstract expressions (shape, flags, value) | case analysis; induction |
| C35-C37 | `Inequality`, `BoundedVariable`, `vertcat` | lists; induction |
| C38-C42 | `CasadiStructure.__init__`, traversal, lookup table | structural induction over structs |
| C43-C46, C59-C61 | `traverseByPowerIndex` with getter/setter dispatchers | induction; separation of index sets from C38 |
| C47-C51 | `__call__`, `parseMatrix`, `repeated`, `squared`, `product` | from C43 and list lemmas |
| C52-C54 | `MXVeccatStruct`, `MXStruct`, `VertsplitStructure.buildMap` | state machine invariants; counterexample for C53 |
| C55 | symm branches of the dispatchers | matrices over index maps; counterexample for element access |
| C56 | pickle memo + shared initializer dict | heap model; counterexample for lists |
| C57, C58 | `EntryList`, `Structure.__init__`, `CasadiStructEntry` | case analysis; counterexamples |
| C62 | `ImplicitDae.__init__` | case analysis |
| C63 | ellipsis, dict, set, nesteddict in `traverseByPowerIndex` | unfolding; mutual induction over entries |
| C64 | `performExtraIndex`, CasADi slices | index arithmetic; C38 |
| C65 | `CasadiStructEntry.__init__` | case analysis over the keywords |
| C66 | `ssymStruct`, `msymStruct` with given symbols (`Struct/PropsSyms.lean`, `Struct/PropsSymsSymm.lean`) | C65; disjointness of parts; C55 for type symm |
| C67 | `getCanonicalIndex`, `getLabel`, `labels` | induction over the struct; commas separate the parts of a label |
| C68 | `FlatIndexGetter`, traversals | the traversals of `s.i` and `s.f` side by side; C38 |
| C69 | `getStruct` | from C59: the part below a nested struct is an object of its own |
| C70, C71 | `CollocationScheme.__init__`, `combine` | inversion of the steps of a successful construction |
| C72 | `struct(v)`, `DataReference*` with a heap of matrices and objects | invariant of all programs; the write to copy and matrix simulates the write to one master |
| C73, C74 | solutions of `CollocationScheme.eq` | the laws at the collocation points (C25), weighted by the tableau; for C74 the quadratic form along the collocation polynomials, exactness of Gauss weights (C10) |
| C75 | `butcherTableuForCollocationPoints` | the condition is exactness for derivatives of products of polynomials that vanish at 0; these span all degrees below twice the number of nodes (C10) |
| C76, C77 | `CollocationScheme` on the reversed grid and on parts of the grid | the closed form of the scheme and a relation between the columns of the variables of two schemes |
| C78 | solutions of `CollocationScheme.eq` over the reals | Banach's fixed point theorem for the stages of an interval, induction over the intervals |
| C79 | callables in `Dispatcher`, `GetterDispatcher`, `SetterDispatcher`, `IMDispatcher` | simulation of the traversal below the callable by the one without it |
| C80 | `w0` in `CollocationIntegrator.__init__` | column-major reading undoes writing; closed form of the scheme for K = 0 |
| C81 | solutions of `CollocationScheme.eq` over the reals, Gauss and Radau nodes | positive weights; x'Sx of the collocation polynomials integrated exactly (Gauss) or with an error of known sign (Radau); mean value theorem for the sign of integrals |
| C82 | nodes 0 and 1 in `CollocationScheme.__init__` | closed form of the scheme; rows of `A` for the nodes 0 and 1 |
| C83 | solutions of `CollocationScheme.eq` over the reals | Taylor's theorem, exactness of the tableau for polynomials, stage errors, discrete Gronwall inequality |
| C84 | `CollocationIntegrator` for ordinary differential equations | C78 and C83 through the vector of unknowns of the root search |
| C85 | `Pdq`, `PiecewisePoly` on samples of smooth functions | iterated Rolle theorem, remainder of polynomial interpolation, C12, C14, C18, C19, C21 |
| C86 | exceptions of structs, entries, inequalities, models, grids, schemes | case analysis of the model, C12, C17, C21, C57; `Structure.traverseByPowerIndex` replaces every exception |
| C87 | `butcherTableuForCollocationPoints`; solutions of `CollocationScheme.eq` and `CollocationIntegrator` for linear models | the quadrature order gives `b*A^l = b*(1-c)^l/l!` by integration by parts; expansion of the stages and of the exact solution in powers of the matrix; discrete Gronwall inequality |
| C88 | solutions of `CollocationScheme.eq` and `CollocationIntegrator` for models with algebraic states | on the zero set of the residual derivative and algebraic state are Lipschitz functions of the state: Banach fixed point for existence, the error recursion of C83 for the rest |
| C89 | `squared`, `product`, `squared_repeated` of an MX: `MXStruct`, `buildMap` with the matrix as parent | the vertsplit map has the matrix as its only element; writes do not change it; counterexamples |
| C90 | `__getstate__`, `__setstate__` of all classes, pickle memo + shared initializer dict | as C56: the first object that contains a struct decides; counterexamples |
| C91 | as C87, for nonlinear models | one step is tested with a polynomial that solves the adjoint of the linearized equation up to `O(h^(m-1))`; the weights integrate its products with the step polynomial exactly; the quadratic remainder is `O(h^(2M+2))`; discrete Gronwall inequality |
| C92 | as C91, for models of index one and for the quadratures | the residual defines the state derivative as a function of the state; the quadratures are further components of the system whose columns in the Jacobian are zero |
| C93 | `__str__` of entries, structs and objects | the text can be read from the left: numbers end before the first character that is no digit, names before the first separator |
| C94 | tableau; Gauss and Radau nodes | orthogonal polynomials exist by linear algebra; a polynomial whose roots inside have even multiplicity keeps its sign, so an orthogonal one has all its roots inside |
| C95 | as C81, all points | with `u = t v` the weighted sum of the derivative of `|u|^2` at the nodes is at least the integral of `|v|^2`; the stage equations are strongly monotone in the derivatives, a damped iteration is a contraction on a ball |
| C96 | as C81, all points | compare with the polynomials through the exact solution at the start and the nodes: their derivatives have defects of order `H^M` only; the stage form bounds the derivatives of the difference from below, uniformly in the model; the increase of the form over a step is the weighted sum of its derivatives at the nodes |
| C97 | as C88 and C96; root finders with a tolerance instead of exact ones | residuals enter the stage equations as perturbations of the derivatives and the continuity equations as jumps; discrete Gronwall for small steps, the stage form (`stage_stable`) for contractive models |
| C98 | as C88, C95 and C97; `Integrator.new`, `call` | the model defines a monotone, locally Lipschitz right-hand side; a solution of the equations is read into the vector of unknowns and back; accuracy from C96 and C97 for the difference to the exact root |
| C99 | `piecewisePolyX`, `integrate`, `PiecewisePoly.call`, `derivative`; C24, C30, C88, C96 | the difference to the interpolant of the exact solution is a polynomial with small values at the start and the collocation points, bounded by the sum of the Lagrange polynomials; the interpolation error from C85's lemmas |
| C100 | `getDisp` and `imDisp` side by side; C38 | the relational lemma for two traversals (`goStruct_relC`), with the entries restricted to those that are not symmetric; positions are bounded by the size |
| C101 | `setDispOn` for `assign` and for a dispatcher that only records the writes | the same relational lemma: the record does not depend on the contents, and the contents afterwards are the last writes of the record |
| C102 | `setDispOn assign` with itself, below the canonical indices that begin with one of the names | invariant "only positions of these entries have changed"; positions of different entries are disjoint (C38); exchange from C101 |
| C103 | the recording dispatcher of C101 run for two values | two traversals with the same power index and different values: if the second succeeds, it has recorded at least the positions of the first (`goStruct_cov`); the contents are the last writes |
| C104 | the dispatchers of `s.i[pi]` and `s[pi] = v` side by side | a relation between trees of index matrices, trees of values and lists of writes (`Match`); traversal by induction (`goStruct_write`); reading by C100. `C104_lens_partial` (`Struct/PropsLens2.lean`) has entries of type 'symm': one set of positions per power index, independent of the values (`LStep`), read and overwritten by each step of the traversal |
| C105 | `SetterDispatcher` on `pi` against `s.i` on `pi` without callables | traversal by induction: the write changes positions in `P` only if the index matrices read lie in `P` (`goStruct_touch`); exchange by C101, reading by C100; `C105_symm` shows that the restriction is needed |
| C106 | solutions of `CollocationScheme.eq` for models with linear parts | along the collocation polynomial `v' - h*La*v` vanishes at the nodes, so it is a multiple of the node polynomial; eliminating the factor gives the transfer matrix (`transfer_eq`); for positive nodes the derivatives of the node polynomial at 0 alternate in sign, so `E(0)` does not vanish for `la < 0` |
| C107 | `performExtraIndex` and `delegation` with matrices and `index[...]` | `getMat` characterised position by position (`getMat_numbered`; the nonzeros of a vector keep their order when it is transposed); `index[b]` reduces to the matrix `t.i[b]`; the cast is compared element by element |
| C108 | `MatrixStruct.__init__` with entries and data (`newSXData`, which also returns `data` afterwards) | the assignments of C47 from arbitrary contents (`assignKeys_cat`) determine every element; the partial overwrite is shown for one pair of entries with arbitrary values |
| C109 | `Prefixer.__getattr__` (`Prefixer.getattr`: an attribute as an arbitrary function of the matrix that has it) | views: the matrix is the one of the cast (C50, C51); prefixes: it is the whole master; refuted by the shape of one of two elements |
| C110 | `integrate`, `Integrator.call`, `piecewisePolyX`; C88, C97, C99 | the solution found is compared with the exact solution of the equations for the same inputs (C88, C97), that with the exact solution of the model (C88); C99 transfers the bounds at the nodes to all times; for contractive models and steps of any length the same with C97_contractive, C98 and C96 |
| C111 | `PolynomialBasis`, `interpolationMatrix` with rounding (`Num/Float.lean`: `Rounding`, `Flt`) | every computed weight is the exact one times a factor between (1-u)^m and (1-u)^-m; error of a sum in any order; quotient of the barycentric formula |
| C112 | `PolynomialBasis.D` with rounding | relative errors of the quotients; the diagonal is a sum computed in any order |
| C113 | `PiecewisePoly.__call__` with rounding | monotone rounding keeps the local coordinate in [0, 1]; C111; error of an inner product in any order, exact for unit vectors; mean value theorem |
| C114 | `PiecewisePoly.discretize`, `np.arange` with rounding | monotone rounding: no sample is beyond 1; C113; refuted by a pair of doubles, computed with `roundTo_eq` |
| C115 | `integrate(...)` and the evaluation of the trajectory with rounding | C110 for the exact trajectory, the Lebesgue constant for errors of the coefficients, C113 for the evaluation |
| C116 | `butcherTableuForCollocationPoints` and `poly1d` with rounding (`Num/FloatPoly.lean`) | every operation on coefficients keeps "error at most gamma_m times the majorant"; Horner's rule from the last coefficient backwards |
| C117 | `Pdq.__init__` and `cheb` with rounding (`Num/FloatPdq.lean`); the nodes in [0, 1] are a parameter | error of the scaled nodes; the assertion of the constructor decides success; assembly as in C17; matrices by C112; witnesses with doubles |
| C118 | `CollocationScheme.__init__` with rounded numbers (`Num/FloatScheme.lean`); expressions evaluated in real numbers | closed form of the scheme with perturbed coefficients; perturbation of one interval as in C97, with the residual at the exact time in between; Gronwall; C88 for the exact solution |
| C119 | `q` and `Q` of `CollocationScheme` (collocation.py:333-342), exact and with rounded coefficients | difference of two sums with neighbouring coefficients and values; induction over the intervals; C97, C118 and C88 for the states, C96 to C98 for contractive models |
| C120 | `vec`, `FlatIndexDispatcher`, `Dispatcher.callableInner/callableOuter`, `s.f[...]` (structure3.py:98-102, 432-441, 774-783, 834-837), results with dicts and indices with callables | relation between the traversals with and without callables; induction on the result for `vec`; the dispatcher below a callable is the same one |
| C121 | binding of arguments (`Num/PyCall.lean`), `CollocationSimulator.__init__` up to the failing call, the end of `simulate`, the properties of `CollocationScheme` (collocation.py:243-257, 345-486, 513-522, 569-625) | characterization of the calls that bind; the rest of the constructor is an arbitrary function |
| C122 | link of the numeric model (`structMX`, `combine`, `Mat.ofVec`, `Integrator.envOf`, `Integrator.w0`) with the model of `structure3.py` (`newEntry`, `newVeccat`, `newMXStruct`) | C52, C54, C57, C58; a vector is cut into the matrices of a second struct with the same layout |
| C123 | `pwDerivative`, `Grid.derivative` (`Num/Float.lean`, `Num/FloatPdq.lean`): `PiecewisePoly.derivative`, `Pdq.derivative` with rounding | C112 for the rows, inner product with a perturbed row whose diagonal is accurate relative to the others; zero products do not count (`dotOf_err_nz`); C14, C115, C117 |
| C124 | `Flt.interpolator`, `interpolatorAt`, `interpolatorCall` (`Num/FloatPdq.lean`): `Pdq.interpolator`, `_PdqInterpolator.__call__` with rounding | C111 for the basis of each group, `searchsorted`/`clip` as in C20, points of the grid by C117 |
| C125 | `FltC.compose`, `FltP.poly` (`Num/FloatCompose.lean`): `compose`, `PiecewisePoly.poly` with rounding; `np.power` with a bounded relative error is a parameter (`FltP`) | C116 for the Lagrange polynomials, coefficientwise errors of products with scalars, sums and the rescaling |
| C126 | `Flt.Grid.integral` (`Num/FloatIntegral.lean`): `Pdq.integral` with rounding; `cs.solve` is a parameter with bounded residuals (`Flt.Solves`) | C112 for the matrix; a polynomial from the values of its derivative by integrals of Lagrange polynomials; sum over the intervals |
| C127 | `Flt.barycentricInterpolator`, `FltP.polynomialInterpolator` (`Num/FloatInterpolators.lean`): both interpolators with rounding; `np.linalg.solve` and `np.power` are parameters | `dot_ok` for the barycentric one; residuals of the Vandermonde equations, paired with the coefficients of the interpolating polynomial and of the Lagrange polynomials |
| C128 | `polynomialBasisI`, `polynomialInterpolatorI`, `polyI` (`Num/IntArrays.lean`): the same functions for integer arrays, with int64 differences, products and powers that wrap around | wrapping is a ring homomorphism, so only the final product or power matters; products of consecutive integers as factorials; the Vandermonde equations with one wrong entry are solved explicitly |
| C129 | `goStruct` for lists (structure3.py:409-417), with all dispatchers (`Struct/PropsNames.lean`) | the loop calls the dispatcher without entry; compare with the call for a single name; a repeated entry is not in the map by its name alone |
| C130 | `Scheme.new` for two models (`Num/PropsChange.lean`) | states at the points, continuity and quadratures are linear in the variables with the weights of the tableau, which are exact on polynomials up to the order; residuals are compared at each point through `AtPoint` |
| C131 | `Scheme.new` for a model and its tangent model (`Num/PropsTangent.lean`) | states at the points, continuity and quadratures are linear in the variables; the derivative of a residual that vanishes on a curve vanishes; a tangent model is characterised by curves, not by a formula |
| C132 | `Scheme.new`, `Integrator.new`, `Integrator.call` for a model and its tangent model (`Num/PropsSens.lean`, `Num/PropsSens2.lean`, `Num/PropsSens3.lean`) | the solution at 0 plus `ε` times its tangent solves the collocation equations up to `o(ε)`; the estimates for inexact solutions (C97) bound the distance of the exact solution. Existence of the tangent solution (C132_exists): the estimates make the linear system injective, it is square; the integrator's outputs are then differentiable too (C132_integrator_exists). For contractive models the tangent solution is assumed to be given |
| C133 | `Scheme.new`, `Integrator.new`, `Integrator.call` (`Num/PropsVariation.lean`) | a step is bilinear in two variations; `b[i]*A[i,j] + b[j]*A[j,i] = b[i]*b[j]` (C75) turns the change of the form over a step into a sum of its rates at the collocation points, where the law of the model makes them zero; for the integrator differentiability comes from C132 and the common base solution from C88 |
| C134 | `Scheme.new`, `Integrator.new`, `Integrator.call` for a model and its adjoint model (`Num/PropsAdjoint.lean`) | adjoint states and variations of the states are both advanced with the tableau; as in C133 the symplecticity condition turns the change of their product over a step into the sum of its rates at the collocation points, which are the quadratures of the adjoint model; the first part of a solution of the adjoint scheme solves the scheme of the model, uniqueness (C88) and differentiability (C132) give the integrator version |
| C135 | `Prefixer.text`, `prefixConstructorText`, `delegaterText`, `PIdx.repr` (`Struct/PrefixText.lean`) | the first two characters of the text of an index determine its kind, and each kind can be split off from what follows (a number ends at the first character that is not a digit, a name at the next quote); tuples, lists and sets by splitting at the separators; then C93 for the struct; the two casts by C45 |
| C136 | `Scheme.new` for a model and its adjoint model (`Num/PropsOptimal.lean`) | the gradient follows from C134 with the final adjoint state equal to the gradient of the cost; along the segment to another admissible input the cost is differentiable (C132) and not smaller, hence the variational inequality; the adjoint stages solve linear equations with the matrix A - b, which have a solution by the contraction of C88, backwards from the last interval |
| C137 | `butcherTableuForCollocationPoints`, `Scheme.new` (`Num/PropsSymmetric.lean`) | weights are symmetric (C76) and odd powers of x - 1/2 antisymmetric; the node polynomial is even or odd about 1/2, so the matrices E(0) and E(1) of C106 are p(hLa) and p(-hLa), which are adjoint to each other with respect to the form and commute; for x' = t the derivatives at the collocation points are the times themselves |
| C138 | `Integrator.new`, `Integrator.call` (`Num/PropsFlow.lean`, `Num/PropsFlow2.lean`) | the outputs are values of the scheme's attributes at a root; the columns of a root on the whole grid are roots on the parts (C77) and on the reversed grid (C76), and roots with the same data are equal (C88) |
| C139 | `Scheme.new` (`Num/PropsLayout.lean`) | closed forms of the attributes; the model function sees the same arguments at every point; cs.diff(p) makes the columns equal |
| C140 | `Scheme.new` (`Num/PropsControl.lean`, `Num/PropsControl2.lean`, `Num/PropsControl3.lean`, `Num/PropsControl4.lean`, `Num/PropsControl5.lean`, `Num/PropsControl6.lean`) | every decision has exactly one solution of the equations (C88, C98), which converges uniformly in the decision; compare the optimum with the solution for another decision. Existence: putting the states of one decision together with the inputs of a nearby one gives a small residual, so by C97 the solutions are near; then compactness. Tolerances: C97 and C119 bound the errors of an inexact solution, which is compared with exact solutions for other decisions |
| C141 | `Scheme.new`, `Integrator` (`Num/PropsStability.lean`, `Num/PropsStability2.lean`, `Num/PropsStability3.lean`) | the states of one assignment with the inputs of the other leave a residual of at most the Lipschitz constant times the difference of the inputs in the same interval; then the estimates of C97 (small steps, contractive models) step by step, summed with weights |
| C142 | `loadOne`, `picklePrefix`, `Obj.setitem` (`Struct/PropsPickleWrite.lean`) | traversals with and without `originalsparsity` side by side: equal for the other types, and in general one does what the other does without an exception; counterexample for 'symm' |
| C143 | `newEntry`, `newSXExprs`, `newVeccat`, `VObj.setitem`, `VObj.getitem` (`Struct/PropsSymExpr.lean`) | C47 and C55 for `struct_SX`; C52 for `struct_MX` with the stored pattern; counterexample |
| C144 | `VObj.setitem`, `VObj.getitem` (`Struct/PropsVeccatAll.lean`, `PropsVeccatSymm.lean`) | as C63 for the loop; assignments of the single repetitions with C52; objects with the same expressions are equal; for symmetric entries C143 |
| C145 | `resolve`, `PObj.save`, `structLoad` (`Struct/SaveLoad.lean`, `Struct/PropsSaveLoad.lean`) | the name `file` is not bound at the top level of the module; with a function that opens files: each file holds the pickle of one object (C90), and later saves leave the files of other names |

The plan above is the one made at the beginning, with rows added for later properties. The status of every property and the
names of its theorems are in `MANIFEST.json`.

## Trusted base

1. **Lean 4.33.0's kernel** and the statements of the definitions of Mathlib that occur in theorems (`Polynomial`, `Matrix`, lists, fields,
   `Real.cos`, `HasDerivWithinAt`, `iteratedDerivWithin`, `ContDiffOn`).
2. **Axioms.** `#print axioms` on the 554 distinct theorems of the manifest: 461 depend on `propext`, `Classical.choice`, `Quot.sound`; 85 on
   `propext`, `Quot.sound`; 6 (`St.C35_empty`, `C86_tableau`, `St.C86_data`, `St.C86_inequality_shape`, `C121_integrator`, `St.C145_save`) on `propext`; 2 (`C32_missing_alg_accepted`, `St.C48_refuted`) on none. No axioms are added; no `sorry`,
   `native_decide`, `bv_decide`.
3. **Faithfulness of the model.** The code was never run: the sandbox has neither CasADi nor numpy. The model was written by reading
   `/repo`; each definition cites the lines it models. Nothing but this reading connects the theorems with the code. In
   particular the witnesses of the properties called false below have not been reproduced in Python.
4. **Behaviour of libraries**, from knowledge of CasADi, numpy and Python, not checked against them:
   * numpy: `poly1d` (trimming of leading zeros, convolution, `polyint`, Horner), `searchsorted`, `clip`, `arange`, `diff`,
     broadcasting and IndexError/ValueError of arrays;
   * parameters with assumed behaviour, hypotheses of the theorems that use them: a correct linear solver (`IsSolver`; in floating point bounded residuals, `Flt.Solves`),
     `collocation_points`, `cs.Function` (`IsCsFunction`), `cs.rootfinder` (`IsRootfinder`: an exact root; in C97 and C110 only residuals of at most a tolerance);
   * `Num/Float.lean`: numpy's elementary operations are the exact ones followed by a monotone rounding of relative error at most u;
     `np.sum`, `np.prod`, `np.dot` and `np.convolve` combine the elements in some order (the last two possibly with fused multiply-add); `np.arange(0, 1, s)`
     has ceil(1/s) elements i*s, with rounded quotient and products. The example `double` has 53 binary digits, an unbounded exponent, and
     rounds ties up;
   * integer arrays (int64): differences, products and powers wrap around at 64 bits, `/` gives floating point numbers, `/=` raises TypeError;
   * CasADi slices raise for a stop beyond the length or a start before the beginning; a stop below -n with a negative step wraps;
   * `DM(x)` of a list of numbers is a column, of a list of lists of equal length the matrix with these rows; indexing with one list
     gives a row if the matrix has one row (so also for a 1x1 matrix), otherwise a column;
   * assignment `m[i] = v`: same shape -> nonzeros of the pattern take the values of v (0 where v has none); scalar -> everywhere;
     vector -> may be transposed; otherwise RuntimeError. The same for assignments through a `DataReference`;
   * `nz[i]` for an index matrix has the pattern of i; `triu2symm` requires a square upper triangular matrix;
   * `MX(sp, k)`: pattern of the same linear shape, or scalar, or column with nnz elements, otherwise an error;
   * `vertcat` drops 0x0 arguments, otherwise the numbers of columns must agree; `vertsplit` offsets start at 0, are monotone, end
     at the number of rows; `horzcat()`/`vertcat()` without arguments are not modelled;
   * `DM.ones(n,m)*a` is dense, or empty if the scalar `a` is structurally zero;
   * `Sparsity.dim()` gives the numbers of rows and columns, not the number of nonzeros; `repr` of a string without quotes, backslashes
     and unprintable characters is the string in single quotes;
   * pickle: an object that is met again is restored as the same object.

## Simplifications and parts that are not modelled

* Floating point rounding (except in C111 to C119, C123 to C127), overflow, underflow, NaN and inf (except the infinite default bounds of `Inequality`); performance; messages of exceptions. Which
  exception class is raised is modelled (`runtime` stands for RuntimeError and its subclass NotImplementedError, which CasADi raises for
  arguments of the wrong type); C86 is about the classes, most other theorems only say that the code raises.
* Numeric part: symbolic expressions are identified with their values; dense expressions only; names of symbols, `expand`,
  `parallelization`, options and deprecation warnings are not modelled; `np.atleast_2d` in `SystemTrajectory` has been applied.
  Arrays are arrays of numbers of one kind; integer arrays are modelled only where products and powers of them occur (C128). `CollocationIntegrator` is called with keyword arguments (with positional ones CasADi returns a tuple and the
  assignment to `out['x_traj']` raises).
* CasADi functions accept a transposed vector, a scalar or an empty matrix in place of an argument of another shape; the model raises.
  So a model whose parameter is a row, which the scheme accepts, is outside the theorems (they assume a column).
* `collocation.py`: what follows the call of `CollocationScheme` in `CollocationSimulator.__init__`, and `simulate` before its last line
  (neither can be reached, see C121).
* `structure3.py`: texts of functions, matrices and `nesteddict` inside a prefix; `index[...]` with something else than names and numbers, or that selects several elements (the model raises); closing of the files of `save` (C145);
  lists that contain matrices as values of a single element (the model raises);
  entries with both a struct and `type='symm'`; an empty list as an index; a tuple as `expr`.
* `Pickle`, `PickleAll`: the structures in a `shapestruct` are kept as they are; identities of matrices of different objects are not modelled.

* `discretize`: a step of 0 raises ValueError in the model (Python floats: ZeroDivisionError; numpy: ValueError), also for an interval of
  length 0 (numpy: IndexError for the empty range).

## Tests of the model against the repository's tests

`Num/Conform.lean` and `Struct/Conform.lean` run the assertions of /repo/test on the model with `#guard` (over the rationals, with
rational collocation points, fixed numbers in place of random ones, and the known solution in place of iterative solvers). These are
tests, not proofs; a build fails if one fails. Not run: test_diff_cheb, the integrator tests whose expected values are exponentials (for
them see C83), test_directCollocationReach, and the disabled tests test_interpolatingFunction, test_ivp, test_ivp1 of `Pdq`.
The disabled test_expandInput expects every input three times for order 2; code and model give it twice.

## Findings: where the code does not do what the property says

Each item is a theorem about the model; see item 3 of the trusted base.

| property | finding |
|----------|---------|
| C07 | `cheb(0)` does not do what its docstring says |
| C15 | `PiecewisePoly.poly` raises if the data have lower degree than the basis (numpy trims the polynomial) |
| C15 | `PiecewisePoly.poly(-k)` takes the coefficients of interval N-k but the length of the next interval; `poly(-1)` divides by minus the length of the whole grid, so the polynomial runs backwards (C15_negative) |
| C18 | derivative of `Pdq` is wrong for schemes whose last point is not 1 (legendre), with two or more intervals |
| C18 | `derivative` of a 1x1 matrix does not raise but returns a multiple of the transposed differentiation matrix |
| C19 | `integral` ignores surplus columns |
| C20 | the disabled test of `expandInput` expects `order + 1` columns per interval; the code returns `order` |
| C22 | 'left' interpolator: IndexError in the last interval, shifted by one column elsewhere |
| C31 | integrator of a model with parameters and quadratures cannot be constructed (free variable) |
| C32, C33 | `SemiExplicitDae` accepts algebraic states without `alg`; `makeImplicit` then raises |
| C34 | `parallel` returns a plain `Dae` without ode and alg; drops t and tdp; raises for implicit models |
| C36 | `vertcat` of a dict of inequalities drops structural zeros |
| C42 | `getCanonicalIndex` is wrong for sparse elements and for extraMode 2 |
| C48 | `struct(a)` raises for a symbolic scalar unless the struct has one element |
| C49 | `parseMatrix` broadcasts data with a single row silently |
| C50 | `repeated` raises for MX data with a number of columns other than one |
| C51 | `product` with a scalar raises if only the first struct has size 1 |
| C52 | a `struct_MX` with an empty nested struct can never be completed |
| C53 | `struct_MX_mutable` reads whole elements as at construction, whatever has been assigned since |
| C55 | an element below the diagonal of a symm entry reads 0 |
| C56 | unpickling objects that share a struct: the second gets the data of the first; KeyError if the struct is nested |
| C57 | an `order` that omits an entry or names it twice is accepted |
| C58 | surplus elements of inner lists of expressions are dropped silently |
| C60 | a list assignment that raises leaves the elements before the failure changed |
| C61 | `s[...]` raises if a nested struct is empty; a symm entry with an unsymmetric pattern cannot be written back |
| C66 | `sym` with `type='symm'` accepts an unsymmetric symbol, which is never read back |
| C67 | names with commas: two positions can have the same label |
| C68 | `s.f[...]` raises for elements that are not dense, in particular of type symm |
| C69 | `getStruct` of an unknown name raises AttributeError while building its error message |
| C72 | `repeated(v)` and `squared_repeated(v)` do not see later changes of `v`, and a write through them undoes such changes in all of `v` |
| C79 | `s[f,'a',[1]]=[7]` raises although `f` gives a single position; `=7` is accepted: lists are also handed down below a callable |
| C89 | views of MX matrices by `squared` and `product` read the whole matrix as before all writes, though blocks of it read as written; `squared_repeated` raises for MX data with a number of blocks other than one |
| C93 | the text of a struct does not show the orders of nested structs: structs with different layouts can have the same text |
| C103 | a dict is written for its own keys only, so a successful `s[{}] = {}` keeps what an earlier `s[{}] = d` wrote (as intended by the code; only the values without dicts overwrite everything) |
| C104 | `s['a', ::-1] = s['a', ::-1]` swaps the repetitions of `a`, and `s['a', 1:] = s['a', 1:]` raises: a list is read in the order of the selection (structure3.py:227-245) and is indexed with the numbers of the repetitions when it is written (`payloadUnpack`, structure3.py:150-160); `C104_refuted` |
| C107 | `s['v', index['r']]` for a row `r` of the shapestruct is a column, while the cast `t(s['v'])['r']` is a row |
| C108 | `struct_SX(entries, data=D)` ignores the values in `D` and overwrites the caller's `D`, partly even if it raises |
| C109 | `s.prefix['x'].shape` (and every other attribute) is that of the whole `s.cat`, not that of `s['x']` as the comment in the code says |
| C114 | in floating point the last sample of an interval in `discretize` need not be its end ("both its ends are always included", piecewise_poly.py:91): for the interval from -1 to 0.1 it is 0.10000000000000009, beyond the end and larger than the next sample |
| C117 | in floating point the grid of `cheb(N, t0, tf)` need not end at `tf` (docstring polynomial.py:182: "t[-1] == tf"), nor that of `Pdq(t)` at `t[-1]`: from -1 to 0.1 it ends at 0.10000000000000009; it is exact if the length of the interval is a floating point number |
| C117 | in floating point `Pdq` raises AssertionError for ascending bounds that are too close for the nodes, e.g. 1 and 1 + 2^-52 |
| C118 | in floating point the last collocation time of an interval with the node 1 (Radau) need not be its end: on `[-1, 0.1]` the model and `tdp_fun` are evaluated at 0.10000000000000009 | `C118_end_refuted`; distance: `C118_times` |
| C120 | `s.f[{}]` and `s.f[{"a", "b"}]` are not flattened: they are dicts, with nested lists as values for repeated entries |
| C121 | `CollocationSimulator` can never be constructed, its `simulate` could not return, and `CollocationScheme.pdq` always raises |
| C122 | none in the code; the model of `combine` used to accept repeated names and was corrected (`struct_MX` raises) |
| C123 | the derivative of a constant need not be exactly zero in floating point (`C123_constant_refuted`, doubles with fused multiply-add); no defect of the code |
| C124 | none beyond C22: 'left' raises IndexError in the last interval in floating point as well (`C124_left_raises`) |
| C125 | rounding decides whether `poly` raises: it raises for some data of full degree (`C125_full_degree_refuted`) and returns for some constants (`C125_constant`), where exact arithmetic raises (C15) |
| C126 | none beyond C117: an inner interval ends at the point computed for it, which need not be the beginning of the next one |
| C127 | none: both interpolators agree up to rounding errors and the condition of the Vandermonde matrix |
| C128 | integer arrays are not converted: products of differences overflow silently (wrong differentiation matrix for `PolynomialBasis(np.arange(22))`, divisions by zero from 131 nodes on), powers overflow in `polynomialInterpolator(np.arange(17))` and in `poly` for an interval of length 10 and order 19; `poly` of order 0 with integer coefficients raises TypeError |
| C129 | lists of names do not descend into the entries (structure3.py:411 calls `self.traverseByPowerIndex` instead of `self.dict[s].traverseByPowerIndex`): `s[["a"]]` raises if `a` is repeated, `s[["x"], 0]` and `s[["n"], "u"]` raise, and `s[["P"]]` reads only the upper triangle of a symm entry |
| C90 | unpickling a `struct_SX` or `struct_MX_mutable` raises TypeError (the constructor does not accept `order`); a `struct_MX` comes back without its expressions |
| C90 | a list with a struct and a DM struct of it, or with a struct and a struct nested in it, cannot be unpickled (KeyError); if a DM struct was pickled before, a later one in a list with its struct comes back with the old data |
| C142 | after unpickling a DM struct, a matrix cannot be assigned to an entry of type 'symm' (`__getstate__` of the entry omits `originalsparsity`, structure3.py:1326-1327, which line 626 reads) |
| C143 | `struct_MX` does not accept a symmetric expression for an entry of type 'symm' (structure3.py:1129 compares with the stored upper triangle), while `struct_SX` does; `s['P'] = s['P']` raises |
| C144 | `t[...] = s[...]` raises for `struct_MX` objects if an entry of type 'symm' has an element above the diagonal; DM structs can be copied this way |
| C145 | `save` and `struct_load` (exported by the package) always raise NameError: they call `file`, which Python 3 does not have (structure3.py:772, 1063, 1490) |
| C135 | the text of a prefix does not show whether it casts to the whole matrix: `s.repeated(a)` and the prefix with the same object and indices have the same text |

## Mutation testing

`tools/mutate.py` applies an edit to one definition of the model in a scratch copy, builds it and appends the result to
`seeded/LOG.jsonl`. How to read the log:

* A *killed* mutant made some proof fail. That is weaker than the theorem having become false: often the first failure is in a helper
  lemma, and the property theorems that depend on it are only listed as blocked, i.e. they were not checked at all.
* An *invalid* mutant did not compile, so it tested nothing. The first version of the tool counted these as killed. One entry
  (`canonicalIndexAncestors`, line 95) was affected; it has been corrected, and a compiling edit of the same definition was run later.
* Mutants that survive and have a `note` cannot be observed through the callers in the model. This was argued by reading the
  callers and is not proved.
* A mutant that survived and was run again after theorems were added occurs twice; the second line names what was added.
* `tools/automutate.py` used to skip, without a message, every edit after which the mutated file itself did not compile. Edits that were
  refuted by a theorem in the same file were therefore missing: they were neither counted as killed nor as survived. It now
  reports them, and skips only edits that make a definition fail. The last nine entries are such hand-written edits, run again. Automatic
  edits that were skipped in this way have not been run again.
* For the last entries of `Tree.py` and `CS.fRaw` the failing helper lemma was admitted in the scratch copy, to see which theorems fail
  besides it.
