import Verif.Num.Pdq
import Verif.Num.SystemTrajectory
import Verif.Num.Scheme
import Mathlib.Data.Rat.Floor

/-!
# The repository's numeric tests, run on the model

These are tests of the model, not proofs: the assertions of the files in /repo/test are evaluated on the definitions of the
model over the rationals, with the inputs and expected values of the tests.  They guard against a model that differs from the
code on the inputs that the authors of the code chose.  Tests with irrational collocation points are run with rational points,
tests with random numbers with fixed ones; tests with an iterative solver are run with the known solution.
-/

namespace CE.Conform

/-- A matrix with the given rows. -/
def ofRows (l : List (List ℚ)) : Mat ℚ := .ofRows (l.headD []).length l

/-- The rows of a matrix. -/
def rows (A : Mat ℚ) : List (List ℚ) := (List.range A.rows).map fun i => (List.range A.cols).map fun j => A.e i j

/-- The rows of a result, `none` for an exception. -/
def rowsE (A : Except PyErr (Mat ℚ)) : Option (List (List ℚ)) := A.toOption.map rows

/-! ## test_collocation/test_piecewise_poly.py -/

/-- `PiecewisePoly(t, c, PolynomialBasis(tau))` -/
def pp (t : List ℚ) (c : List (List (List ℚ))) (tau : List ℚ) : Except PyErr (PiecewisePoly ℚ) := do
  let b ← polynomialBasis tau
  PiecewisePoly.new t (c.map ofRows) b

/-- `PiecewisePoly(t, c, PolynomialBasis(tau))(q, continuity)` -/
def pcall (t : List ℚ) (c : List (List (List ℚ))) (tau q : List ℚ) (side : String := "right") : Option (List (List ℚ)) :=
  rowsE do
    let p ← pp t c tau
    p.call q side

-- test_call (test_piecewise_poly.py:33-52)
#guard pcall [10, 20] [[[42]]] [0] [-1, 10, 15, 20, 100] = some [[42, 42, 42, 42, 42]]
#guard pcall [-1, 2] [[[1, 3]]] [1/3, 2/3] [-1, 0, 1, 2] = some [[-1, 1, 3, 5]]
#guard pcall [-1, 2] [[[1, 3], [10, 30]]] [1/3, 2/3] [-1, 0, 1, 2] = some [[-1, 1, 3, 5], [-10, 10, 30, 50]]
#guard pcall [-10, 10] [[[1, 0, 1]]] [0, 1/2, 1] [-10, 0, 10] = some [[1, 0, 1]]
#guard pcall [-10, 10, 30] [[[1, 0, 1]], [[2, 0, 2]]] [0, 1/2, 1] [-10, 0, 10, 20, 30] = some [[1, 0, 2, 0, 2]]
#guard pcall [-10, 10, 30] [[[1, 0, 1]], [[2, 0, 2]]] [0, 1/2, 1] [-10, 0, 10, 20, 30] "left" = some [[1, 0, 1, 0, 2]]

/-- test_discretize (test_piecewise_poly.py:55-59): the points and the values. -/
def discretized : Option (List ℚ × List (List ℚ)) := do
  let p ← (pp [-10, 10, 30] [[[1, 0, 1], [1, 2, 3]], [[2, 0, 2], [1, 2, 6]]] [0, 1/2, 1]).toOption
  let d ← (p.discretize (1/2)).toOption
  pure (d.1, rows d.2)

#guard (discretized.map fun d => d.1.length) = some 82
#guard (discretized.map fun d => (d.1.take 3, d.1.drop 39 |>.take 3)) = some ([-10, -19/2, -9], [19/2, 10, 10])
#guard (discretized.map fun d => d.2.map fun r => [r.getD 0 0, r.getD 20 0, r.getD 41 0, r.getD 61 0]) =
  some [[1, 0, 2, 0], [1, 2, 1, 2]]

/-- test_poly (test_piecewise_poly.py:66-78): polynomial `p_k_i` at `t` and the function at `intervals[k] + t`. -/
def polyAgrees (c : List (List (List ℚ))) : Option Bool := do
  let p ← (pp [-10, 0, 30] c [0, 1/2, 1]).toOption
  let l ← (List.range p.numIntervals).mapM fun k : ℕ => do
    let pk ← (p.poly k).toOption
    let a := nd p.intervals k
    let h := nd p.intervals (k + 1) - a
    let t := (List.range 10).map fun i : ℕ => h * i / 10
    let v ← rowsE (p.call (t.map fun s => a + s))
    pure (decide (pk.map (fun q => t.map q.eval) = v))
  pure (l.all id)

#guard polyAgrees [[[3/10, 7/10, 1/5], [9/10, 1/10, 4/5]], [[1/3, 2/3, 1/7], [5/9, 3/8, 6/11]]] = some true

/-! ## test_collocation/test_collocation.py: `PolynomialBasisTest` -/

/-- The nodes `0` and three points in place of the Legendre points. -/
def nodes : List ℚ := [0, 1/10, 1/2, 9/10]

/-- `p_j(x)` by the product formula. -/
def lag (j : ℕ) (x : ℚ) : ℚ :=
  (((List.range 4).filter (· ≠ j)).map fun r => (x - nd nodes r) / (nd nodes j - nd nodes r)).prod

/-- `p_j'(x)` by the product rule. -/
def lagDer (j : ℕ) (x : ℚ) : ℚ :=
  (((List.range 4).filter (· ≠ j)).map fun s =>
    (((List.range 4).filter fun r => r ≠ j ∧ r ≠ s).map fun r =>
      (x - nd nodes r) / (nd nodes j - nd nodes r)).prod / (nd nodes j - nd nodes s)).sum

-- test_interpolationMatrix (test_collocation.py:42-79)
#guard (do let b ← polynomialBasis nodes; pure (rows b.D)).toOption =
  some ((List.range 4).map fun r => (List.range 4).map fun j => lagDer j (nd nodes r))
#guard rowsE (do let b ← polynomialBasis nodes; b.interpolationMatrix [1]) = some [(List.range 4).map fun j => lag j 1]
#guard rowsE (do let b ← polynomialBasis nodes; b.interpolationMatrix [0]) = some [[1, 0, 0, 0]]

-- test_interpolationMatrixChebyshev (test_collocation.py:82-91); the points of order 3 are rational
#guard rowsE (do let b ← polynomialBasis [0, 1/4, 3/4, 1]; b.interpolationMatrix [0, 1]) = some [[1, 0, 0, 0], [0, 0, 0, 1]]

/-- test_compose (test_collocation.py:94-109): a matrix with fewer columns than nodes. -/
def composed : Option (List (List ℚ) × List (List ℚ)) := do
  let b ← (polynomialBasis nodes).toOption
  let q ← (b.compose (ofRows [[1, 2, 3], [4, 5, 6]])).toOption
  let comb := fun x y z : ℚ =>
    (((b.poly.getD 0 ⟨[]⟩).smul x).add ((b.poly.getD 1 ⟨[]⟩).smul y)).add ((b.poly.getD 2 ⟨[]⟩).smul z)
  pure (q.map (·.coef), [(comb 1 2 3).coef, (comb 4 5 6).coef])

#guard composed.isSome
#guard composed.map (·.1) = composed.map (·.2)

/-! ## test_collocation/test_collocation.py: `ChebTest`

The definition `cheb` is over the reals; here its formula is evaluated with the Chebyshev points of orders 0 to 3, which are
rational, from `t0 = 1` to `tf = -1`. -/

/-- `D, t = cheb(N, t0=1, tf=-1)` for the given points. -/
def chebOf (tau : List ℚ) : Option (List (List ℚ) × List ℚ) := (do
  let b ← polynomialBasis tau
  pure ((rows b.D).map fun r : List ℚ => r.map (· / (-1 - 1)), tau.map fun x => x * (-1 - 1) + 1)).toOption

-- test_0, test_1, test_2, test_3 (test_collocation.py:233-268)
#guard chebOf [0] = some ([[0]], [1])
#guard chebOf [0, 1] = some ([[1/2, -1/2], [1/2, -1/2]], [1, -1])
#guard (chebOf [0, 1/2, 1]).map (·.1) = some [[3/2, -2, 1/2], [1/2, 0, -1/2], [-1/2, 2, -3/2]]
#guard (chebOf [0, 1/4, 3/4, 1]).map (·.1) =
  some [[19/6, -4, 4/3, -1/2], [1, -1/3, -1, 1/3], [-1/3, 1, 1/3, -1], [1/2, -4/3, 4, -19/6]]

/-! ## test_collocation/test_collocation.py: `PdqTest` (disabled in the repository) and test_system_trajectory.py -/

-- test_expandInput (test_collocation.py:166-179).  The disabled test expects every column three times; the code repeats it
-- `len(group) - 1` times (collocation.py:180), that is twice, and the test would fail.
#guard rowsE (do
  let p ← Pdq.new (.ok [0, 1/2, 1]) [0, 1, 2] 2
  p.expandInput (ofRows [[1, 2], [3, 4]])) = some [[1, 1, 2, 2], [3, 3, 4, 4]]

/-- The trajectory of test_interpolation (test_system_trajectory.py:31-38). -/
def traj : Except PyErr (SystemTrajectory ℚ) := do
  let p ← Pdq.new (.ok [0, 1]) [1/10, 2/10, 3/10, 4/10] 1
  SystemTrajectory.new (ofRows [[2, 3, 4, 5]]) (ofRows [[4, 5, 6]]) (ofRows [[-1, -2, -3]]) p

-- test_system_trajectory.py:40-44
#guard rowsE (do let s ← traj; s.stateAt [1/10, 2/10, 3/10, 4/10]) = some [[2, 3, 4, 5]]
#guard rowsE (do let s ← traj; s.algStateAt [1/10, 2/10, 3/10]) = some [[4, 5, 6]]
#guard rowsE (do let s ← traj; s.stateAt [15/100, 25/100]) = some [[5/2, 7/2]]
#guard rowsE (do let s ← traj; s.algStateAt [15/100, 25/100]) = some [[4, 5]]

/-! ## test_collocation/test_butcher.py -/

/-- `dot(A, p(c)) = P(c)` and `dot(b, p(c)) = P(1)` for a polynomial with `d` coefficients and its integral. -/
def tableauExact (tau p : List ℚ) : Option Bool := do
  let B ← (butcherTableuForCollocationPoints tau).toOption
  let q := Poly1d.ofCoeffs p
  let Q := q.polyint
  let v := tau.map q.eval
  let dot := fun r : List ℚ => (List.zipWith (· * ·) r v).sum
  pure (decide ((rows B.A.toMat).map dot = tau.map Q.eval ∧ dot B.b.toList = Q.eval 1))

-- test_butcherTableuForCollocationPoints (test_butcher.py:50-65)
#guard tableauExact [1/2] [3/7] = some true
#guard tableauExact [1/5, 4/5] [3/7, 2/9] = some true
#guard tableauExact [1/10, 1/2, 9/10] [3/7, 2/9, 8/3] = some true
#guard tableauExact [1/15, 1/3, 2/3, 14/15] [3/7, 2/9, 8/3, 1/2] = some true

/-! ## test_collocation/test_collocation.py: `CollocationSchemeTest` and `CollocationIntegratorTest` -/

/-- Identities of the symbols. -/
def symId (s : String) : ℕ :=
  match ["x", "z", "u", "p", "t", "tdp", "xdot", "alg", "quad", "K", "Z", "P"].findIdx? (· = s) with
  | some i => i
  | none => 100

/-- Identities of the symbols of the scheme. -/
def schemeId (s : String) : ℕ := 200 + symId s

/-- `cs.Function` of the symbols that `DaeObj.createFunction` hands over (in the order of collocation.py:310). -/
def csFun (_ outs : List (MXExpr ℚ)) : Except PyErr (CsFn ℚ) :=
  .ok fun args => outs.map fun o => o.at' fun id =>
    match (["xdot", "x", "z", "u", "p", "t", "tdp"].map symId).findIdx? (· = id) with
    | some k => (args.getD k ⟨0, 0, fun _ _ => 0⟩).e
    | none => fun _ _ => 0

/-- `cs.collocation_points` with rational points. -/
def points (order : ℕ) (_ : String) : Except PyErr (List ℚ) :=
  .ok ((List.range order).map fun i : ℕ => (i + 1 : ℚ) / (order + 1))

/-- Double integrator with the quadrature `v**2` (test_collocation.py:443-462). -/
def doubleIntegrator : Except PyErr (DaeObj ℚ) :=
  DaeObj.newSemi symId
    { x := some (.sym (symId "x") 2), u := some (.sym (symId "u") 1)
      ode := some ⟨2, 1, false, fun env i _ => if i = 0 then env (symId "x") 1 0 else env (symId "u") 0 0⟩
      quad := some ⟨1, 1, false, fun env _ _ => env (symId "x") 1 0 ^ 2⟩ }

/-- The scheme of test_directCollocationSimple (test_collocation.py:457-465). -/
def simpleScheme : Except PyErr (Scheme ℚ) := do
  let dae ← doubleIntegrator
  Scheme.new schemeId symId points csFun dae [0, 1, 2] 3

/-- The known solution: `v` rises with slope 1 to 1 and falls with slope -1. -/
def simpleSolution : Env ℚ := fun id i j =>
  if id = schemeId "x" then (([[0, 1/2, 1], [0, 1, 0]] : List (List ℚ)).getD i []).getD j 0
  else if id = schemeId "K" then (([[1/4, 1/2, 3/4, 3/4, 1/2, 1/4], [1, 1, 1, -1, -1, -1]] : List (List ℚ)).getD i []).getD j 0
  else if id = schemeId "u" then ([1, -1] : List ℚ).getD j 0
  else 0

-- test_directCollocationSimple (test_collocation.py:440-498): the equations hold and the objective is 2/3
#guard (simpleScheme.map fun s => s.eq.rows).toOption = some 16
#guard (simpleScheme.map fun s => s.eq.vals simpleSolution).toOption = some (List.replicate 16 0)
#guard (simpleScheme.map fun s => s.q.val simpleSolution 0 (s.q.cols - 1)).toOption = some (2/3)
#guard (do
  let s ← simpleScheme
  let w ← s.combine ["x", "K", "Z", "u"]
  pure (w.map fun e : String × MXExpr ℚ => (e.1, e.2.rows, e.2.cols)) : Except PyErr (List (String × ℕ × ℕ))).toOption =
  some [("x", 2, 3), ("K", 2, 6), ("Z", 0, 6), ("u", 1, 2)]

/-- Time-dependent model `xdot = t**2` (test_collocation.py:347-359). -/
def timeModel : Except PyErr (DaeObj ℚ) :=
  DaeObj.newSemi symId
    { x := some (.sym (symId "x") 1), t := some (.sym (symId "t") 1)
      ode := some ⟨1, 1, false, fun env _ _ => env (symId "t") 0 0 ^ 2⟩ }

/-- The integrator of test_collocation_integrator_ode_time_dependent, with order 3. -/
def timeIntegrator : Except PyErr (Integrator ℚ) := do
  let dae ← timeModel
  Integrator.new schemeId symId points csFun dae [12/5, 39/10] 3

/-- The unknowns `x` and `K` of the solution for `x0 = 1.1`. -/
def timeSolution : List ℚ :=
  [11/10, 11/10 + (39/10)^3/3 - (12/5)^3/3] ++ ([1/4, 1/2, 3/4] : List ℚ).map fun c => (12/5 + c * (39/10 - 12/5))^2

/-- A root finder that returns `w` if it is a root, otherwise raises. -/
def knownRoot (w : List ℚ) (f : List ℚ → List ℚ) (_ : List ℚ) : Except PyErr (List ℚ) :=
  if (f w).all (· = 0) then .ok w else .error .runtime

-- test_collocation_integrator_ode_time_dependent (test_collocation.py:347-363)
#guard (do
  let g ← timeIntegrator
  let out ← g.call (knownRoot timeSolution) (ofRows [[11/10]]) ⟨0, 1, fun _ _ => 0⟩ ⟨0, 1, fun _ _ => 0⟩ ⟨0, 1, fun _ _ => 0⟩
  pure (rows out.xf)).toOption = some [[11/10 + (39/10)^3/3 - (12/5)^3/3]]

/-- The model `xdot = z + u`, `0 = z*z - x`, quadrature `x` (test_collocation.py:366-412). -/
def rootModel : Except PyErr (DaeObj ℚ) :=
  DaeObj.newSemi symId
    { x := some (.sym (symId "x") 1), z := some (.sym (symId "z") 1), u := some (.sym (symId "u") 1)
      ode := some ⟨1, 1, false, fun env _ _ => env (symId "z") 0 0 + env (symId "u") 0 0⟩
      alg := some ⟨1, 1, false, fun env _ _ => env (symId "z") 0 0 * env (symId "z") 0 0 - env (symId "x") 0 0⟩
      quad := some (.sym (symId "x") 1) }

/-- The integrator of test_collocation_integrator_dae and ..._dae_with_quad, with order 3 and `tf = 2`. -/
def rootIntegrator : Except PyErr (Integrator ℚ) := do
  let dae ← rootModel
  Integrator.new schemeId symId points csFun dae [0, 2] 3

/-- The unknowns `x`, `K`, `Z` of the solution `x = (t/2 + s)**2` with `z = t/2 + s`. -/
def rootSolution (s : ℚ) : List ℚ :=
  let z := ([1/4, 1/2, 3/4] : List ℚ).map fun c => c + s
  [s^2, (1 + s)^2] ++ z ++ z

/-- `xf` and `qf` for the start value `s**2`. -/
def rootEnd (s : ℚ) : Option (List (List ℚ) × List (List ℚ)) := (do
  let g ← rootIntegrator
  let out ← g.call (knownRoot (rootSolution s)) (ofRows [[s^2]]) (ofRows [[s]]) (ofRows [[0]]) ⟨0, 1, fun _ _ => 0⟩
  pure (rows out.xf, rows out.qf)).toOption

-- test_collocation_integrator_dae (test_collocation.py:366-386): `(tf**2 + sign*4*tf*sqrt(x0) + 4*x0)/4`, and
-- test_collocation_integrator_dae_with_quad (:389-412) with c = 1 + sign*2*sqrt(x0): `((1 + c)**3 - (-1 + c)**3)/12`
#guard rootEnd (1/3) = some ([[(4 + 8 * (1/3) + 4 * (1/3)^2) / 4]], [[((1 + (1 + 2 * (1/3)))^3 - (-1 + (1 + 2 * (1/3)))^3) / 12]])
#guard rootEnd (-5/4) = some ([[(4 - 8 * (5/4) + 4 * (5/4)^2) / 4]], [[((1 + (1 - 2 * (5/4)))^3 - (-1 + (1 - 2 * (5/4)))^3) / 12]])

end CE.Conform
