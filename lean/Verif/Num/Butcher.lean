import Verif.Num.Basis

/-!
# `collocation/butcher.py`
-/

namespace CE

/-- A numpy array: dynamic shape and elements.  Only indices inside the shape have meaning. -/
structure NdArray (K : Type*) where
  shape : List ℕ
  e : List ℕ → K

namespace NdArray
variable {K : Type*}

/-- `np.ndim` -/
def ndim (a : NdArray K) : ℕ := a.shape.length

/-- `np.size` -/
def size (a : NdArray K) : ℕ := a.shape.prod

/-- A 1-D array from a list. -/
def vec [Zero K] (l : List K) : NdArray K := ⟨[l.length], fun ix => nd l (ix.headD 0)⟩

/-- A 2-D array. -/
def mat2 (r c : ℕ) (f : ℕ → ℕ → K) : NdArray K :=
  ⟨[r, c], fun ix => f (ix.headD 0) (ix.tail.headD 0)⟩

end NdArray

/-- butcher.py:25-61: the attributes `A`, `b`, `c`. -/
structure ButcherTableau (K : Type*) where
  A : NdArray K
  b : NdArray K
  c : NdArray K

/-- `ButcherTableau.__init__` (butcher.py:28-46).  `A.shape[0]`, `A.shape[1]` cannot fail after the first
assertion; `np.atleast_2d` / `np.atleast_1d` are the identity on arrays that passed the assertions. -/
def ButcherTableau.new {K : Type*} (A b c : NdArray K) : Except PyErr (ButcherTableau K) :=
  if A.ndim ≠ 2 then .error .assertion
  else if A.shape.getD 0 0 ≠ A.shape.getD 1 0 then .error .assertion
  else if b.ndim ≠ 1 then .error .assertion
  else if b.size ≠ A.shape.getD 1 0 then .error .assertion
  else if c.ndim ≠ 1 then .error .assertion
  else if c.size ≠ A.shape.getD 0 0 then .error .assertion
  else .ok ⟨A, b, c⟩

variable {K : Type*} [Field K] [DecidableEq K]

/-- butcher.py:75-78 (the copy of the Lagrange polynomial loop in this file). -/
def butcherPoly (tau : List K) (j : ℕ) : Poly1d K :=
  (List.range tau.length).foldl
    (fun p r =>
      if r ≠ j then p.mul ((Poly1d.ofCoeffs [1, -(nd tau r)]).divs (nd tau j - nd tau r))
      else p)
    (Poly1d.ofCoeffs [1])

/-- `butcherTableuForCollocationPoints(tau)` (butcher.py:64-85).  Simplification: exact arithmetic; with repeated
nodes numpy produces inf/nan, so theorems assume distinct nodes. -/
def butcherTableuForCollocationPoints (tau : List K) : Except PyErr (ButcherTableau K) :=
  let order := tau.length
  let pint := fun j => (butcherPoly tau j).polyint
  ButcherTableau.new
    (NdArray.mat2 order order fun i j => (pint j).eval (nd tau i))
    (NdArray.vec ((List.range order).map fun j => (pint j).eval 1))
    (NdArray.vec tau)

/-- `butcherTableuForCollocationMethod(order, method)` (butcher.py:89-96); `casadiPoints` stands for
`cs.collocation_points` (external code).  The deprecation warning is not modelled. -/
def butcherTableuForCollocationMethod (casadiPoints : ℕ → String → Except PyErr (List K))
    (order : ℕ) (method : String) : Except PyErr (ButcherTableau K) := do
  let tau ← casadiPoints order method
  butcherTableuForCollocationPoints tau

end CE
