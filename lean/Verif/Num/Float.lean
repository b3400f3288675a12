import Verif.Num.PiecewisePoly
import Mathlib.Data.Real.Basic
import Mathlib.Data.Real.Archimedean

/-!
# Floating point arithmetic

The rest of the numeric model computes exactly.  Here the functions of `polynomial.py` and `piecewise_poly.py` that evaluate polynomials are
modelled once more with rounding: every elementary operation is the exact one followed by a rounding function with a relative error of at most
`u` (for doubles `u = 2^-53`).  Overflow, underflow, infinities and NaN are not modelled.  The order in which numpy adds and multiplies the
elements of an array is left open.
-/

namespace CE

/-- Rounding to floating point numbers with the unit roundoff `u`. -/
structure Rounding where
  rnd : ℝ → ℝ
  u : ℝ
  u_nonneg : 0 ≤ u
  u_lt : u < 1
  err : ∀ x, |rnd x - x| ≤ u * |x|
  mono : Monotone rnd
  idem : ∀ x, rnd (rnd x) = rnd x
  one : rnd 1 = 1

/-- `x` is a floating point number. -/
def Rounding.IsFl (R : Rounding) (x : ℝ) : Prop := R.rnd x = x

/-- `r` is a value of `np.sum` of the elements of the list, which are added in some order, pairwise or one after the other. -/
inductive SumOf (R : Rounding) : List ℝ → ℝ → Prop
  | nil : SumOf R [] 0
  | one (x) : SumOf R [x] x
  | add {l l' a b} : l ≠ [] → l' ≠ [] → SumOf R l a → SumOf R l' b → SumOf R (l ++ l') (R.rnd (a + b))
  | perm {l l' a} : SumOf R l a → l.Perm l' → SumOf R l' a

/-- `r` is a value of `np.prod` of the elements of the list, in some order. -/
inductive ProdOf (R : Rounding) : List ℝ → ℝ → Prop
  | nil : ProdOf R [] 1
  | one (x) : ProdOf R [x] x
  | mul {l l' a b} : l ≠ [] → l' ≠ [] → ProdOf R l a → ProdOf R l' b → ProdOf R (l ++ l') (R.rnd (a * b))
  | perm {l l' a} : ProdOf R l a → l.Perm l' → ProdOf R l' a

/-- `r` is a value of the inner product of the pairs in the list, in some order, with or without fused multiply-add. -/
inductive DotOf (R : Rounding) : List (ℝ × ℝ) → ℝ → Prop
  | nil : DotOf R [] 0
  | one (x y) : DotOf R [(x, y)] (R.rnd (x * y))
  | add {l l' a b} : l ≠ [] → l' ≠ [] → DotOf R l a → DotOf R l' b → DotOf R (l ++ l') (R.rnd (a + b))
  | fma {l a} (x y) : l ≠ [] → DotOf R l a → DotOf R ((x, y) :: l) (R.rnd (x * y + a))
  | perm {l l' a} : DotOf R l a → l.Perm l' → DotOf R l' a

/-- Floating point arithmetic with the reductions of numpy. -/
structure Flt extends Rounding where
  sum : List ℝ → ℝ
  sum_spec : ∀ l, SumOf toRounding l (sum l)
  prod : List ℝ → ℝ
  prod_spec : ∀ l, ProdOf toRounding l (prod l)
  /-- `np.dot` of matrices of matching shapes: every entry is some value of the inner product. -/
  dot : Mat ℝ → Mat ℝ → ℕ → ℕ → ℝ
  dot_spec : ∀ A B i j, DotOf toRounding ((List.range A.cols).map fun k => (A.e i k, B.e k j)) (dot A B i j)

namespace Flt

variable (f : Flt)

/-- `np.dot(A, B)` with rounding; raises ValueError on a shape mismatch. -/
def matDot (A B : Mat ℝ) : Except PyErr (Mat ℝ) :=
  if A.cols = B.rows then .ok ⟨A.rows, B.cols, f.dot A B⟩ else .error .value

/-- polynomial.py:64, one element of `lam`: `1 / np.prod([tau[k] - tau[np.arange(n) != k]])`. -/
noncomputable def lamAt (tau : List ℝ) (k : ℕ) : ℝ :=
  f.rnd (1 / f.prod (((List.range tau.length).filter (fun i => decide (i ≠ k))).map fun i => f.rnd (nd tau k - nd tau i)))

/-- polynomial.py:77 and 79: `lam[k] / lam[j] / (tau[j] - tau[k])`. -/
noncomputable def diffQuot (tau lam : List ℝ) (j k : ℕ) : ℝ :=
  f.rnd (f.rnd (nd lam k / nd lam j) / f.rnd (nd tau j - nd tau k))

/-- polynomial.py:73-79, one entry of the differentiation matrix (changing the sign is exact). -/
noncomputable def diffEntry (tau lam : List ℝ) (j k : ℕ) : ℝ :=
  if j ≠ k then f.diffQuot tau lam j k
  else -f.sum (((List.range tau.length).filter (fun i => decide (i ≠ j))).map fun i => f.diffQuot tau lam j i)

/-- Attributes `tau`, `D`, `_lam` of a `PolynomialBasis` computed with rounding; the attribute `poly` is left out. -/
structure Basis where
  tau : List ℝ
  D : Mat ℝ
  lam : List ℝ

/-- `PolynomialBasis(tau)` (polynomial.py:41-84) without the attribute `poly`. -/
noncomputable def polynomialBasis (tau : List ℝ) : Except PyErr Basis :=
  if tau = [] then .error .assertion
  else
    let lam := (List.range tau.length).map (f.lamAt tau)
    .ok ⟨tau, ⟨tau.length, tau.length, f.diffEntry tau lam⟩, lam⟩

open Classical in
/-- polynomial.py:109-121: one row of the interpolation matrix.  Comparisons are exact; the weights in line 119 are computed twice, with the
same result. -/
noncomputable def interpRow (b : Basis) (xi : ℝ) : Except PyErr (List ℝ) :=
  let ind := b.tau.map (fun x => decide (xi = x))
  if ind.any id then
    if ind.count true = 1 then .ok (ind.map fun c => if c then 1 else 0)
    else .error .assertion
  else
    let w := List.zipWith (fun l x => f.rnd (l / f.rnd (xi - x))) b.lam b.tau
    .ok (w.map fun x => f.rnd (x / f.sum w))

/-- `PolynomialBasis.interpolationMatrix(t)` (polynomial.py:99-123). -/
noncomputable def interpolationMatrix (b : Basis) (t : List ℝ) : Except PyErr (Mat ℝ) := do
  let r ← t.mapM (f.interpRow b)
  if r = [] then .error .value else pure (Mat.ofRows b.tau.length r)

/-- Attributes of a `PiecewisePoly` (piecewise_poly.py:45-47). -/
structure Piecewise where
  intervals : List ℝ
  coefficients : List (Mat ℝ)
  basis : Basis

/-- piecewise_poly.py:78-84: the value at one point. -/
noncomputable def callAt (pp : Piecewise) (side : Side) (ti : ℝ) : Except PyErr (Mat ℝ) := do
  let i := npClip ((searchsorted pp.intervals ti side : ℤ) - 1) 0 ((pp.intervals.length : ℤ) - 2)
  let a ← pyIndex pp.intervals i
  let b ← pyIndex pp.intervals (i + 1)
  let tau := f.rnd (f.rnd (ti - a) / f.rnd (b - a))
  let c ← pyIndex pp.coefficients i
  let L ← f.interpolationMatrix pp.basis [tau]
  f.matDot c L.T

/-- `PiecewisePoly.__call__(t, continuity)` (piecewise_poly.py:61-86). -/
noncomputable def call (pp : Piecewise) (t : List ℝ) (continuity : String := "right") : Except PyErr (Mat ℝ) :=
  match PiecewisePoly.parseSide continuity with
  | .error e => .error e
  | .ok side => do
    let l ← t.mapM (f.callAt pp side)
    hstack l

/-- piecewise_poly.py:116, one coefficient matrix of the derivative: `np.dot(c, D.T) / (t[i+1] - t[i])`. -/
noncomputable def pwDerivativeAt (pp : Piecewise) (i : ℕ) (c : Mat ℝ) : Except PyErr (Mat ℝ) := do
  let d ← f.matDot c pp.basis.D.T
  let b ← pyIndex pp.intervals (i + 1)
  let a ← pyIndex pp.intervals i
  pure ⟨d.rows, d.cols, fun r j => f.rnd (d.e r j / f.rnd (b - a))⟩

/-- `PiecewisePoly.derivative()` (piecewise_poly.py:111-116); the constructor (piecewise_poly.py:31-47) checks the lengths. -/
noncomputable def pwDerivative (pp : Piecewise) : Except PyErr Piecewise := do
  let cs ← pp.coefficients.zipIdx.mapM fun ci => f.pwDerivativeAt pp ci.2 ci.1
  if ¬ pp.intervals.length > 1 then .error .assertion
  else if cs.length ≠ pp.intervals.length - 1 then .error .assertion
  else pure ⟨pp.intervals, cs, pp.basis⟩

open Classical in
/-- `np.arange(0, 1, step)` for a float: `ceil(1/step)` points, the i-th one is `i*step` (numpy computes `0 + i*step`); both the quotient and
the products are rounded. -/
noncomputable def arange01 (step : ℝ) : Except PyErr (List ℝ) :=
  if step = 0 then .error .value
  else .ok ((List.range (⌈f.rnd (1 / step)⌉).toNat).map fun (i : ℕ) => f.rnd ((i : ℝ) * step))

open Classical in
/-- piecewise_poly.py:100-106: the samples on interval `i`. -/
noncomputable def discretizeAt (pp : Piecewise) (step : ℝ) (i : ℕ) : Except PyErr (List ℝ × Mat ℝ) := do
  let a ← pyIndex pp.intervals i
  let b ← pyIndex pp.intervals (i + 1)
  let tau ← f.arange01 (f.rnd (step / f.rnd (b - a)))
  let last ← pyIndex tau (-1)
  let tau ←
    if last ≠ 1 then
      if last < 1 then .ok (tau ++ [1]) else .error .assertion
    else .ok tau
  let c ← pyIndex pp.coefficients i
  let L ← f.interpolationMatrix pp.basis tau
  let y ← f.matDot c L.T
  pure (tau.map (fun s => f.rnd (a + f.rnd (s * f.rnd (b - a)))), y)

/-- `PiecewisePoly.discretize(step)` (piecewise_poly.py:89-108). -/
noncomputable def discretize (pp : Piecewise) (step : ℝ) : Except PyErr (List ℝ × Mat ℝ) := do
  let l ← (List.range (pp.intervals.length - 1)).mapM (f.discretizeAt pp step)
  let y ← hstack (l.map Prod.snd)
  pure ((l.map Prod.fst).flatten, y)

end Flt

end CE
