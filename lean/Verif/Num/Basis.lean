import Verif.Num.Poly1d

/-!
# Model of `casadi_extras/collocation/polynomial.py` (class `PolynomialBasis` and the interpolators)
-/

namespace CE

variable {K : Type*} [Field K] [DecidableEq K]

/-- Object of class `PolynomialBasis`: attributes `poly`, `D`, `tau`, `_lam` (polynomial.py:81-84). -/
structure Basis (K : Type*) where
  tau : List K
  poly : List (Poly1d K)
  D : Mat K
  lam : List K

/-- Inner loop of polynomial.py:55-59 (and of butcher.py:74-78): the j-th Lagrange polynomial,
`pp = poly1d([1])`, `pp *= poly1d([1, -tau[r]]) / (tau[j] - tau[r])` for `r != j`. -/
def lagrangePoly (tau : List K) (j : ℕ) : Poly1d K :=
  (List.range tau.length).foldl
    (fun pp r =>
      if r ≠ j then
        pp.mul ((Poly1d.ofCoeffs [1, -(nd tau r)]).divs (nd tau j - nd tau r))
      else pp)
    (Poly1d.ofCoeffs [1])

/-- polynomial.py:64, one element: `1 / np.prod([tau[k] - tau[np.arange(n) != k]])`. -/
def lamAt (tau : List K) (k : ℕ) : K :=
  1 / (((List.range tau.length).filter (fun i => decide (i ≠ k))).map
        (fun i => nd tau k - nd tau i)).prod

/-- polynomial.py:73-79, one entry of the differentiation matrix. -/
def diffEntry (tau lam : List K) (j k : ℕ) : K :=
  if j ≠ k then nd lam k / nd lam j / (nd tau j - nd tau k)
  else -(((List.range tau.length).filter (fun i => decide (i ≠ j))).map
        (fun i => nd lam i / nd lam j / (nd tau j - nd tau i))).sum

/-- `PolynomialBasis(tau)` (polynomial.py:41-84).  The argument is already 1-D, so the only assertion that can
fail is `len(tau) > 0`.  Simplification: exact arithmetic; with repeated nodes numpy produces inf/nan where the
model has the value of a division by zero, therefore theorems assume distinct nodes. -/
def polynomialBasis (tau : List K) : Except PyErr (Basis K) :=
  if tau = [] then .error .assertion
  else
    let n := tau.length
    let lam := (List.range n).map (lamAt tau)
    .ok { tau := tau
          poly := (List.range n).map (lagrangePoly tau)
          D := ⟨n, n, diffEntry tau lam⟩
          lam := lam }

namespace Basis

/-- polynomial.py:87-89 -/
def numPoints (b : Basis K) : ℕ := b.tau.length

/-- polynomial.py:92-96 -/
def order (b : Basis K) : ℕ := b.tau.length - 1

/-- polynomial.py:109-121: one row of the interpolation matrix, for the query point `xi`. -/
def interpRow (b : Basis K) (xi : K) : Except PyErr (List K) :=
  let ind := b.tau.map (fun x => decide (xi = x))
  if ind.any id then
    if ind.count true = 1 then .ok (ind.map fun c => if c then 1 else 0)
    else .error .assertion
  else
    let w := List.zipWith (fun l x => l / (xi - x)) b.lam b.tau
    .ok (w.map (· / w.sum))

/-- `PolynomialBasis.interpolationMatrix(t)` (polynomial.py:99-123); `np.vstack([])` raises ValueError. -/
def interpolationMatrix (b : Basis K) (t : List K) : Except PyErr (Mat K) := do
  let r ← t.mapM b.interpRow
  if r = [] then .error .value else pure (Mat.ofRows b.tau.length r)

/-- One polynomial of `compose`, polynomial.py:137-139: `q_i = poly1d([0])`, `q_i += c[i,j] * poly[j]`
for `j < N`; `self.poly[j]` raises IndexError for `j >= n`. -/
def composeRow (b : Basis K) (c : Mat K) (i : ℕ) : Except PyErr (Poly1d K) :=
  (List.range c.cols).foldlM
    (fun q j =>
      match b.poly[j]? with
      | some p => .ok (q.add (Poly1d.smul (c.e i j) p))
      | none => .error .index)
    (Poly1d.ofCoeffs [0])

/-- `PolynomialBasis.compose(c)` (polynomial.py:126-142). -/
def compose (b : Basis K) (c : Mat K) : Except PyErr (List (Poly1d K)) :=
  (List.range c.rows).mapM (b.composeRow c)

end Basis

/-- `barycentricInterpolator(x)(u, xq)` (polynomial.py:158-167) for a 2-D `u`. -/
def barycentricInterpolator (x : List K) (u : Mat K) (xq : List K) : Except PyErr (Mat K) := do
  let b ← polynomialBasis x
  let L ← b.interpolationMatrix xq
  Mat.dot u L.T

/-- `polynomialInterpolator(x)(u, xx)` (polynomial.py:146-155) for a 2-D `u`: `X[n,k] = x[k]**n`, right-hand side
`xx**n`; `solve` stands for `np.linalg.solve` (parameter: external code). -/
def polynomialInterpolator (solve : Mat K → Mat K → Except PyErr (Mat K))
    (x : List K) (u : Mat K) (xx : List K) : Except PyErr (Mat K) := do
  let n := x.length
  let X : Mat K := ⟨n, n, fun i k => nd x k ^ i⟩
  let R : Mat K := ⟨n, xx.length, fun i q => nd xx q ^ i⟩
  let W ← solve X R
  Mat.dot u W

end CE
