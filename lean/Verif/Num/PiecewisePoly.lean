import Verif.Num.Basis
import Verif.Num.Arrays

/-!
# `collocation/piecewise_poly.py`

Simplifications: exact arithmetic over an ordered field; coefficient matrices are 2-D arrays.
-/

namespace CE

variable {K : Type*} [Field K] [LinearOrder K]

/-- piecewise_poly.py:27-46: the attributes `_intervals`, `_coefficients`, `_basis`. -/
structure PiecewisePoly (K : Type*) where
  intervals : List K
  coefficients : List (Mat K)
  basis : Basis K

namespace PiecewisePoly

/-- `PiecewisePoly.__init__` (piecewise_poly.py:31-46). -/
def new (intervals : List K) (coefficients : List (Mat K)) (basis : Basis K) :
    Except PyErr (PiecewisePoly K) :=
  if ¬ intervals.length > 1 then .error .assertion
  else if coefficients.length ≠ intervals.length - 1 then .error .assertion
  else .ok ⟨intervals, coefficients, basis⟩

/-- piecewise_poly.py:56-58 -/
def numIntervals (pp : PiecewisePoly K) : ℕ := pp.intervals.length - 1

/-- piecewise_poly.py:70-71: the admissible values of `continuity`. -/
def parseSide : String → Except PyErr Side
  | "left" => .ok .left
  | "right" => .ok .right
  | _ => .error .value

/-- piecewise_poly.py:78-84: the value at one point. -/
def callAt (pp : PiecewisePoly K) (side : Side) (ti : K) : Except PyErr (Mat K) := do
  let i := npClip ((searchsorted pp.intervals ti side : ℤ) - 1) 0 ((pp.intervals.length : ℤ) - 2)
  let a ← pyIndex pp.intervals i
  let b ← pyIndex pp.intervals (i + 1)
  let tau := (ti - a) / (b - a)
  let c ← pyIndex pp.coefficients i
  let L ← pp.basis.interpolationMatrix [tau]
  Mat.dot c L.T

/-- `PiecewisePoly.__call__(t, continuity)` (piecewise_poly.py:61-86); `t` after `np.atleast_1d`. -/
def call (pp : PiecewisePoly K) (t : List K) (continuity : String := "right") : Except PyErr (Mat K) :=
  match parseSide continuity with
  | .error e => .error e
  | .ok side => do
    let l ← t.mapM (pp.callAt side)
    hstack l

/-- piecewise_poly.py:100-106: the samples on interval `i`. -/
def discretizeAt [FloorRing K] (pp : PiecewisePoly K) (step : K) (i : ℕ) :
    Except PyErr (List K × Mat K) := do
  let a ← pyIndex pp.intervals i
  let b ← pyIndex pp.intervals (i + 1)
  let tau ← arange01 (step / (b - a))
  let last ← pyIndex tau (-1)
  let tau ←
    if last ≠ 1 then
      if last < 1 then .ok (tau ++ [1]) else .error .assertion
    else .ok tau
  let c ← pyIndex pp.coefficients i
  let L ← pp.basis.interpolationMatrix tau
  let y ← Mat.dot c L.T
  pure (tau.map (fun s => a + s * (b - a)), y)

/-- `PiecewisePoly.discretize(step)` (piecewise_poly.py:89-108); `np.hstack([])` raises ValueError (only when there
is no interval, which the constructor excludes). -/
def discretize [FloorRing K] (pp : PiecewisePoly K) (step : K) : Except PyErr (List K × Mat K) := do
  let l ← (List.range pp.numIntervals).mapM (pp.discretizeAt step)
  let y ← hstack (l.map Prod.snd)
  pure ((l.map Prod.fst).flatten, y)

/-- piecewise_poly.py:116: one coefficient matrix of the derivative, `np.dot(c, D.T) / (t[i+1] - t[i])`. -/
def derivativeAt (pp : PiecewisePoly K) (i : ℕ) (c : Mat K) : Except PyErr (Mat K) := do
  let d ← Mat.dot c pp.basis.D.T
  let b ← pyIndex pp.intervals (i + 1)
  let a ← pyIndex pp.intervals i
  pure ⟨d.rows, d.cols, fun r j => d.e r j / (b - a)⟩

/-- `PiecewisePoly.derivative()` (piecewise_poly.py:111-116). -/
def derivative (pp : PiecewisePoly K) : Except PyErr (PiecewisePoly K) := do
  let cs ← pp.coefficients.zipIdx.mapM fun ci => pp.derivativeAt ci.2 ci.1
  new pp.intervals cs pp.basis

/-- piecewise_poly.py:128 for one polynomial: `p_i.coef /= h ** np.flip(np.arange(order + 1))`.  The in-place division
raises ValueError unless the (trimmed) coefficient array has exactly `order + 1` elements: the result must fit into
the left operand, and an array of another length is either not broadcastable or would have to grow. -/
def rescale (h : K) (order : ℕ) (p : Poly1d K) : Except PyErr (Poly1d K) :=
  if p.coef.length = order + 1 then
    .ok ⟨List.zipWith (fun c (k : ℕ) => c / h ^ k) p.coef (List.range (order + 1)).reverse⟩
  else .error .value

/-- `PiecewisePoly.poly(n)` (piecewise_poly.py:119-130). -/
def poly (pp : PiecewisePoly K) (n : ℤ) : Except PyErr (List (Poly1d K)) := do
  let c ← pyIndex pp.coefficients n
  let p ← pp.basis.compose c
  p.mapM fun p_i => do
    let b ← pyIndex pp.intervals (n + 1)
    let a ← pyIndex pp.intervals n
    rescale (b - a) pp.basis.order p_i

end PiecewisePoly

end CE
