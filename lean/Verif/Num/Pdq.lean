import Verif.Num.Basis
import Verif.Num.Arrays

/-!
# `Pdq` and `_PdqInterpolator` (collocation.py:32-240)

Simplifications: exact arithmetic over an ordered field; matrices are dense; `integral` on MX is read as the function
from values to values that the expression denotes.  `collocationPoints(order, type)` enters as the parameter `cp`
(its result, which may be an error; for 'chebyshev' see `CE.collocationPoints`).
-/

namespace CE

variable {K : Type} [Field K] [LinearOrder K]

/-- `cs.mtimes(A, B)`: a 1x1 factor multiplies elementwise, otherwise the inner dimensions must agree (RuntimeError). -/
def csMtimes (A B : Mat K) : Except PyErr (Mat K) :=
  if A.cols = B.rows then
    .ok ⟨A.rows, B.cols, fun i j => ∑ k ∈ Finset.range A.cols, A.e i k * B.e k j⟩
  else if A.rows = 1 ∧ A.cols = 1 then .ok ⟨B.rows, B.cols, fun i j => A.e 0 0 * B.e i j⟩
  else if B.rows = 1 ∧ B.cols = 1 then .ok ⟨A.rows, A.cols, fun i j => A.e i j * B.e 0 0⟩
  else .error .runtime

/-- `A[r0 : r0 + B.rows, c0 : c0 + B.cols] = B` inside the shape of `A`. -/
def Mat.setBlock (A : Mat K) (r0 c0 : ℕ) (B : Mat K) : Mat K :=
  ⟨A.rows, A.cols, fun i j =>
    if r0 ≤ i ∧ i < r0 + B.rows ∧ c0 ≤ j ∧ j < c0 + B.cols then B.e (i - r0) (j - c0) else A.e i j⟩

/-- `A[: -1, :]` -/
def Mat.dropLastRow (A : Mat K) : Mat K := ⟨A.rows - 1, A.cols, A.e⟩

/-- `A[-1, :]` as a row -/
def Mat.lastRow (A : Mat K) : Mat K := ⟨1, A.cols, fun _ j => A.e (A.rows - 1) j⟩

/-- `A[: -1, 1 :]` -/
def Mat.dropLastRowFirstCol (A : Mat K) : Mat K := ⟨A.rows - 1, A.cols - 1, fun i j => A.e i (j + 1)⟩

/-- The attributes of a `Pdq` object (collocation.py:80-99). -/
structure Pdq (K : Type) where
  basis : List (Basis K)
  collocationPoints : List K
  collocationGroups : List (List ℕ)
  intervalBounds : List K
  polyOrder : ℕ
  bigD : Mat K

namespace Pdq

/-- collocation.py:58-66 for interval `i`: the points of the interval and their basis. -/
def intervalBasis (cp : Except PyErr (List K)) (t : List K) (order : ℕ) (i : ℕ) :
    Except PyErr (List K × Basis K) := do
  let c ← cp
  let b1 ← pyIndex t (i + 1)
  let a ← pyIndex t i
  let t_i := c.map fun x => x * (b1 - a) + a
  let basis ← polynomialBasis t_i
  if ¬ (basis.D.rows = order + 1 ∧ basis.D.cols = order + 1) then .error .assertion
  else if ¬ (t_i.length = order + 1) then .error .assertion
  else if ¬ ((List.range (t_i.length - 1)).all fun k => decide (nd t_i k < nd t_i (k + 1))) then .error .assertion
  else pure (t_i, basis)

/-- collocation.py:92-97: the big differentiation matrix, starting from `cs.DM(N, N)` (zeros). -/
def assembleD (n : ℕ) (basis : List (Basis K)) : Mat K :=
  let zero : Mat K := ⟨n, n, fun _ _ => 0⟩
  let D := (basis.foldl (fun (s : Mat K × ℕ) b =>
    (s.1.setBlock s.2 s.2 b.D.dropLastRow, s.2 + (b.numPoints - 1))) (zero, 0)).1
  match basis.getLast? with
  | some b => D.setBlock (n - 1) (n - b.numPoints) b.D.lastRow
  | none => D

/-- `Pdq.__init__` (collocation.py:41-99).  `len(t) - 1` intervals; with none, `t_i` is unbound in line 75
(UnboundLocalError, a NameError). -/
def new (cp : Except PyErr (List K)) (t : List K) (order : ℕ) : Except PyErr (Pdq K) := do
  let N := t.length - 1
  let l ← (List.range N).mapM (intervalBasis cp t order)
  match l.getLast? with
  | none => .error .name
  | some (t_i, _) => do
    let last ← pyIndex t_i (-1)
    let pts := (l.map fun tb => tb.1.dropLast).flatten ++ [last]
    let basis := l.map Prod.snd
    pure
      { basis := basis
        collocationPoints := pts
        collocationGroups := (List.range N).map fun i => List.range' (i * order) (order + 1)
        intervalBounds := t
        polyOrder := order
        bigD := assembleD pts.length basis }

/-- collocation.py:114-117 -/
def numIntervals (p : Pdq K) : ℕ := p.intervalBounds.length - 1

/-- collocation.py:126-129 -/
def t0 (p : Pdq K) : Except PyErr K := pyIndex p.collocationPoints 0

/-- collocation.py:132-135 -/
def tf (p : Pdq K) : Except PyErr K := pyIndex p.collocationPoints (-1)

/-- collocation.py:138-143 -/
def intervalLength (p : Pdq K) : Except PyErr K := do
  let b ← pyIndex p.collocationPoints (-1)
  let a ← pyIndex p.collocationPoints 0
  pure (b - a)

/-- `Pdq.derivative(y)` (collocation.py:146-150): `cs.mtimes(y, bigD[: -1, :].T)`. -/
def derivative (p : Pdq K) (y : Mat K) : Except PyErr (Mat K) := csMtimes y p.bigD.dropLastRow.T

/-- One pass of the loop of `Pdq.integral` (collocation.py:160-169); the state is `(k, y0, y)`.  `solve` stands for
`cs.solve`; a slice beyond the columns of `dy` and `y[-1][:, -1]` of an empty block raise in CasADi. -/
def integralStep (solve : Mat K → Mat K → Except PyErr (Mat K)) (dy : Mat K)
    (s : ℕ × (ℕ → K) × List (Mat K)) (b : Basis K) : Except PyErr (ℕ × (ℕ → K) × List (Mat K)) := do
  let n := b.numPoints - 1
  if s.1 + n > dy.cols then .error .runtime
  else do
    let w ← solve b.D.dropLastRowFirstCol (dy.colSlice s.1 n).T
    let y : Mat K := ⟨w.cols, w.rows, fun i j => w.e j i + s.2.1 i⟩
    if y.cols = 0 then .error .runtime
    else pure (s.1 + n, fun i => y.e i (y.cols - 1), s.2.2 ++ [y])

/-- `Pdq.integral(dy)` (collocation.py:153-171). -/
def integral (solve : Mat K → Mat K → Except PyErr (Mat K)) (p : Pdq K) (dy : Mat K) :
    Except PyErr (Mat K) := do
  let s ← p.basis.foldlM (integralStep solve dy) (0, fun _ => 0, [])
  pure (Mat.hcat dy.rows s.2.2)

/-- `Pdq.expandInput(u)` (collocation.py:174-180). -/
def expandInput (p : Pdq K) (u : Mat K) : Except PyErr (Mat K) :=
  if u.cols ≠ p.numIntervals then .error .assertion
  else do
    let l ← (List.range p.numIntervals).mapM fun (k : ℕ) => do
      let g ← pyIndex p.collocationGroups k
      pure (⟨u.rows, g.length - 1, fun i _ => u.e i k⟩ : Mat K)
    pure (Mat.hcat u.rows l)

end Pdq

/-- `_PdqInterpolator` (collocation.py:195-222): its attributes. -/
structure PdqInterpolator (K : Type) where
  basis : List (Basis K)
  pdq : Pdq K
  continuity : String
  groups : List (List ℕ)

/-- collocation.py:209-217: the groups for a continuity option. -/
def interpolatorGroups (groups : List (List ℕ)) (continuity : String) : Except PyErr (List (List ℕ)) :=
  groups.mapM fun g =>
    if continuity = "both" then .ok g
    else if continuity = "left" then .ok g.tail
    else if continuity = "right" then .ok g.dropLast
    else .error .value

/-- numpy fancy indexing `a[g]` of a 1-D array with natural indices. -/
def fancyIndex (a : List K) (g : List ℕ) : Except PyErr (List K) :=
  g.mapM fun (i : ℕ) => pyIndex a i

/-- numpy fancy indexing `x[:, g]`: IndexError if an index is out of bounds. -/
def Mat.fancyCols (x : Mat K) (g : List ℕ) : Except PyErr (Mat K) :=
  if g.all (fun i => decide (i < x.cols)) then .ok ⟨x.rows, g.length, fun i j => x.e i (g.getD j 0)⟩
  else .error .index

/-- `Pdq.interpolator(continuity)` / `_PdqInterpolator.__init__` (collocation.py:183-192, 197-222). -/
def Pdq.interpolator (p : Pdq K) (continuity : String := "both") : Except PyErr (PdqInterpolator K) :=
  match interpolatorGroups p.collocationGroups continuity with
  | .error e => .error e
  | .ok groups => do
    let basis ← groups.mapM fun g => do
      let pts ← fancyIndex p.collocationPoints g
      polynomialBasis pts
    pure ⟨basis, p, continuity, groups⟩

namespace PdqInterpolator

/-- collocation.py:237-238 for one query point.  The search is always `'right'`. -/
def callAt (f : PdqInterpolator K) (x : Mat K) (ti : K) : Except PyErr (Mat K) :=
  let i := npClip ((searchsorted f.pdq.intervalBounds ti .right : ℤ) - 1) 0
    ((f.pdq.intervalBounds.length : ℤ) - 2)
  match pyIndex f.groups i with
  | .error e => .error e
  | .ok g => do
    let xg ← x.fancyCols g
    let b ← pyIndex f.basis i
    let L ← b.interpolationMatrix [ti]
    Mat.dot xg L.T

/-- `_PdqInterpolator.__call__(x, t)` (collocation.py:225-240). -/
def call (f : PdqInterpolator K) (x : Mat K) (t : List K) : Except PyErr (Mat K) :=
  let expected := if f.continuity = "both" then f.pdq.collocationPoints.length
    else f.pdq.collocationPoints.length - 1
  if x.cols ≠ expected then .error .value
  else do
    let l ← t.mapM (f.callAt x)
    hstack l

end PdqInterpolator

end CE
