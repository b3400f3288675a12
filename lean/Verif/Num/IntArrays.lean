import Verif.Num.PiecewisePoly

/-!
# Integer arrays

The code also accepts integer arrays (`np.arange(n)`, `np.array([0, 1, 3])`): nothing in polynomial.py and piecewise_poly.py
converts them to floating point numbers.  Behaviour of numpy (trusted base): differences, products and powers of integer arrays
(dtype int64) are integers modulo 2^64 between -2^63 and 2^63 - 1, without a warning; `/` gives floating point numbers; in-place `/=` of an integer
array raises TypeError.  This file models the functions whose intermediate results are integers.  Simplification: floating
point numbers are elements of a field, as in `Basis.lean`; where the divisor is 0 numpy gives inf or nan, the model has the
value of a division by zero.
-/

namespace CE

/-- The int64 number that is congruent to `x` modulo 2^64. -/
def wrap (x : ℤ) : ℤ := Int.bmod x (2 ^ 64)

/-- `a - b` for int64. -/
def wsub (a b : ℤ) : ℤ := wrap (a - b)

/-- `np.prod` of an int64 array. -/
def wprod (l : List ℤ) : ℤ := l.foldl (fun a b => wrap (a * b)) 1

/-- `x ** k` for int64 and `k >= 0`. -/
def wpow (x : ℤ) (k : ℕ) : ℤ := wprod (List.replicate k x)

section
variable {K : Type} [Field K] [DecidableEq K]

/-- polynomial.py:55-59 for an integer array `tau`, see `lagrangePoly`. -/
def lagrangePolyI (tau : List ℤ) (j : ℕ) : Poly1d K :=
  (List.range tau.length).foldl
    (fun pp r =>
      if r ≠ j then
        pp.mul ((Poly1d.ofCoeffs [1, ((wrap (-(nd tau r)) : ℤ) : K)]).divs ((wsub (nd tau j) (nd tau r) : ℤ) : K))
      else pp)
    (Poly1d.ofCoeffs [1])

/-- The argument of `1 / ...` in polynomial.py:64 for an integer array, one element. -/
def lamDenI (tau : List ℤ) (k : ℕ) : ℤ :=
  wprod (((List.range tau.length).filter (fun i => decide (i ≠ k))).map fun i => wsub (nd tau k) (nd tau i))

/-- polynomial.py:64 for an integer array, one element. -/
def lamAtI (tau : List ℤ) (k : ℕ) : K := 1 / ((lamDenI tau k : ℤ) : K)

/-- polynomial.py:73-79 for an integer array, see `diffEntry`. -/
def diffEntryI (tau : List ℤ) (lam : List K) (j k : ℕ) : K :=
  if j ≠ k then nd lam k / nd lam j / ((wsub (nd tau j) (nd tau k) : ℤ) : K)
  else -(((List.range tau.length).filter (fun i => decide (i ≠ j))).map
        (fun i => nd lam i / nd lam j / ((wsub (nd tau j) (nd tau i) : ℤ) : K))).sum

/-- `PolynomialBasis(tau)` (polynomial.py:41-84) for an integer array. -/
def polynomialBasisI (tau : List ℤ) : Except PyErr (Basis K) :=
  if tau = [] then .error .assertion
  else
    let n := tau.length
    let lam := (List.range n).map (lamAtI tau)
    .ok { tau := tau.map fun (x : ℤ) => (x : K)
          poly := (List.range n).map (lagrangePolyI tau)
          D := ⟨n, n, diffEntryI tau lam⟩
          lam := lam }

/-- `polynomialInterpolator(x)(u, xx)` (polynomial.py:146-155) for an integer array `x` and floating point `u`, `xx`; `np.linalg.solve` converts the
integer matrix `X`. -/
def polynomialInterpolatorI (solve : Mat K → Mat K → Except PyErr (Mat K)) (x : List ℤ) (u : Mat K) (xx : List K) : Except PyErr (Mat K) := do
  let n := x.length
  let X : Mat K := ⟨n, n, fun i k => ((wpow (nd x k) i : ℤ) : K)⟩
  let R : Mat K := ⟨n, xx.length, fun i q => nd xx q ^ i⟩
  let W ← solve X R
  Mat.dot u W

/-- The in-place division of piecewise_poly.py:128 for a floating point array `p_i.coef` and an integer `h`. -/
def rescaleI (h : ℤ) (order : ℕ) (p : Poly1d K) : Except PyErr (Poly1d K) :=
  if p.coef.length = order + 1 then
    .ok ⟨List.zipWith (fun c (k : ℕ) => c / ((wpow h k : ℤ) : K)) p.coef (List.range (order + 1)).reverse⟩
  else .error .value

/-- `PiecewisePoly.poly(n)` (piecewise_poly.py:119-130) for an integer array `intervals`; `intCoef` tells whether the
coefficients are integer arrays.  The polynomials of a basis with a single node are `np.poly1d([1])`, an integer array, all others are floating point
numbers; so the composed polynomials are integer arrays exactly for integer coefficients and a single node, and then `/=` raises. -/
def polyI (intervals : List ℤ) (intCoef : Bool) (coefficients : List (Mat K)) (basis : Basis K) (n : ℤ) : Except PyErr (List (Poly1d K)) := do
  let c ← pyIndex coefficients n
  let p ← basis.compose c
  p.mapM fun p_i => do
    let b ← pyIndex intervals (n + 1)
    let a ← pyIndex intervals n
    if intCoef ∧ basis.order = 0 then .error .type else rescaleI (wsub b a) basis.order p_i

end

end CE
