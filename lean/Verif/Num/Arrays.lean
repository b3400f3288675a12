import Verif.Num.Base
import Mathlib.Algebra.Order.Floor.Ring
import Mathlib.Algebra.Order.Field.Basic

/-!
# numpy primitives used by `piecewise_poly.py`, `collocation.py`, `system_trajectory.py`

External code; its assumed behaviour is spelled out as definitions (trusted base).
-/

namespace CE

variable {K : Type*}

/-- `np.hstack` of 2-D arrays: raises ValueError on an empty list or on different row counts. -/
def hstack [Zero K] : List (Mat K) → Except PyErr (Mat K)
  | [] => .error .value
  | A :: l => if l.all (fun B => B.rows = A.rows) then .ok (Mat.hcat A.rows (A :: l)) else .error .value

/-- The loop of numpy's binary search on `a[lo:hi]`; `before x` says that `x` sorts before the key. -/
def binSearch [Zero K] (before : K → Bool) (a : List K) (lo hi : ℕ) : ℕ :=
  if h : lo < hi then
    let mid := lo + (hi - lo) / 2
    if before (nd a mid) then binSearch before a (mid + 1) hi else binSearch before a lo mid
  else lo
termination_by hi - lo

/-- The `side` argument of `np.searchsorted` (the `continuity` argument of `PiecewisePoly.__call__`). -/
inductive Side
  | left
  | right
  deriving DecidableEq, Repr

/-- `np.searchsorted(a, v, side)`: binary search for the insertion point. -/
def searchsorted [Zero K] [LinearOrder K] (a : List K) (v : K) : Side → ℕ
  | .left => binSearch (fun x => decide (x < v)) a 0 a.length
  | .right => binSearch (fun x => decide (x ≤ v)) a 0 a.length

/-- `np.clip(v, lo, hi)` on integers: `minimum(maximum(v, lo), hi)`. -/
def npClip (v lo hi : ℤ) : ℤ := min (max v lo) hi

/-- Python `l[i]` with a possibly negative integer index. -/
def pyIndex {α : Type*} (l : List α) (i : ℤ) : Except PyErr α :=
  let j := if i < 0 then i + l.length else i
  if j < 0 then .error .index
  else match l[j.toNat]? with
    | some a => .ok a
    | none => .error .index

/-- `np.arange(0, 1, step)`: `ceil(1/step)` points `0, step, 2*step, …`; a non-positive count gives an empty array and
a zero step raises (ValueError: maximum allowed size exceeded). -/
def arange01 [Field K] [LinearOrder K] [FloorRing K] (step : K) : Except PyErr (List K) :=
  if step = 0 then .error .value
  else .ok ((List.range (⌈1 / step⌉).toNat).map fun (i : ℕ) => (i : K) * step)

end CE
