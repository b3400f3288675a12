import Verif.Num.Float
import Verif.Num.Pdq

/-!
# `Pdq.__init__` and `cheb` in floating point

As in `Float.lean`, every elementary operation is followed by a rounding.  The nodes in [0, 1], the result of `collocationPoints`, are a
parameter: they come from `np.cos` or from CasADi.
-/

namespace CE

namespace Flt

variable (f : Flt)

/-- collocation.py:58, polynomial.py:189: one element of `tau * (b - a) + a`. -/
noncomputable def scaled (a b x : ℝ) : ℝ := f.rnd (f.rnd (x * f.rnd (b - a)) + a)

open Classical in
/-- collocation.py:58-66 for interval `i`: the points of the interval and their basis.  For points that coincide numpy divides by zero with
a warning, and the last assertion, on the rounded differences `np.diff(t_i)`, fails all the same. -/
noncomputable def intervalBasis (cp : Except PyErr (List ℝ)) (t : List ℝ) (order : ℕ) (i : ℕ) : Except PyErr (List ℝ × Basis) := do
  let c ← cp
  let b1 ← pyIndex t (i + 1)
  let a ← pyIndex t i
  let t_i := c.map (f.scaled a b1)
  let basis ← f.polynomialBasis t_i
  if ¬ (basis.D.rows = order + 1 ∧ basis.D.cols = order + 1) then .error .assertion
  else if ¬ (t_i.length = order + 1) then .error .assertion
  else if ¬ ((List.range (t_i.length - 1)).all fun k => decide (0 < f.rnd (nd t_i (k + 1) - nd t_i k))) then .error .assertion
  else pure (t_i, basis)

/-- Attributes of a `Pdq` (collocation.py:80-99). -/
structure Grid where
  basis : List Basis
  collocationPoints : List ℝ
  collocationGroups : List (List ℕ)
  intervalBounds : List ℝ
  polyOrder : ℕ
  bigD : Mat ℝ

/-- The attributes the assembly of the big matrix looks at. -/
def Basis.plain (b : Basis) : CE.Basis ℝ := ⟨b.tau, [], b.D, b.lam⟩

/-- `Pdq.__init__` (collocation.py:41-99).  The big matrix is made up of the entries of the bases' matrices without any arithmetic, so the
assembly (lines 88-99) is that of `Pdq.lean`. -/
noncomputable def pdqNew (cp : Except PyErr (List ℝ)) (t : List ℝ) (order : ℕ) : Except PyErr Grid := do
  let N := t.length - 1
  let l ← (List.range N).mapM (f.intervalBasis cp t order)
  match l.getLast? with
  | none => .error .name
  | some (t_i, _) => do
    let last ← pyIndex t_i (-1)
    let pts := (l.map fun tb => tb.1.dropLast).flatten ++ [last]
    let basis := l.map Prod.snd
    pure
      { basis := basis
        collocationPoints := pts
        collocationGroups := (List.range N).map fun i => List.range' (i * order) (order + 1)
        intervalBounds := t
        polyOrder := order
        bigD := Pdq.assembleD pts.length (basis.map Basis.plain) }

/-- collocation.py:132-135 -/
def Grid.tf (p : Grid) : Except PyErr ℝ := pyIndex p.collocationPoints (-1)

/-- `cs.mtimes(A, B)` (CasADi) of dense matrices with rounding, see `csMtimes` in `Pdq.lean`. -/
noncomputable def csMtimes (A B : Mat ℝ) : Except PyErr (Mat ℝ) :=
  if A.cols = B.rows then .ok ⟨A.rows, B.cols, f.dot A B⟩
  else if A.rows = 1 ∧ A.cols = 1 then .ok ⟨B.rows, B.cols, fun i j => f.rnd (A.e 0 0 * B.e i j)⟩
  else if B.rows = 1 ∧ B.cols = 1 then .ok ⟨A.rows, A.cols, fun i j => f.rnd (A.e i j * B.e 0 0)⟩
  else .error .runtime

/-- `Pdq.derivative(y)` (collocation.py:146-150): `cs.mtimes(y, bigD[: -1, :].T)`. -/
noncomputable def Grid.derivative (p : Grid) (y : Mat ℝ) : Except PyErr (Mat ℝ) := f.csMtimes y p.bigD.dropLastRow.T

/-- `_PdqInterpolator` (collocation.py:195-222): its attributes. -/
structure Interpolator where
  basis : List Basis
  pdq : Grid
  continuity : String
  groups : List (List ℕ)

/-- `Pdq.interpolator(continuity)` / `_PdqInterpolator.__init__` (collocation.py:183-192, 197-222). -/
noncomputable def interpolator (p : Grid) (continuity : String := "both") : Except PyErr Interpolator :=
  match interpolatorGroups p.collocationGroups continuity with
  | .error e => .error e
  | .ok groups => do
    let basis ← groups.mapM fun g => do
      let pts ← fancyIndex p.collocationPoints g
      f.polynomialBasis pts
    pure ⟨basis, p, continuity, groups⟩

/-- collocation.py:237-238 for one query point. -/
noncomputable def interpolatorAt (I : Interpolator) (x : Mat ℝ) (ti : ℝ) : Except PyErr (Mat ℝ) :=
  let i := npClip ((searchsorted I.pdq.intervalBounds ti .right : ℤ) - 1) 0 ((I.pdq.intervalBounds.length : ℤ) - 2)
  match pyIndex I.groups i with
  | .error e => .error e
  | .ok g => do
    let xg ← x.fancyCols g
    let b ← pyIndex I.basis i
    let L ← f.interpolationMatrix b [ti]
    f.matDot xg L.T

/-- `_PdqInterpolator.__call__(x, t)` (collocation.py:225-240). -/
noncomputable def interpolatorCall (I : Interpolator) (x : Mat ℝ) (t : List ℝ) : Except PyErr (Mat ℝ) :=
  let expected := if I.continuity = "both" then I.pdq.collocationPoints.length else I.pdq.collocationPoints.length - 1
  if x.cols ≠ expected then .error .value
  else do
    let l ← t.mapM (f.interpolatorAt I x)
    hstack l

/-- `cheb(N, t0, tf)` (polynomial.py:187-189) for the nodes `tau`. -/
noncomputable def cheb (cp : Except PyErr (List ℝ)) (t0 tf : ℝ) : Except PyErr (Mat ℝ × List ℝ) := do
  let tau ← cp
  let basis ← f.polynomialBasis tau
  pure (⟨basis.D.rows, basis.D.cols, fun i j => f.rnd (basis.D.e i j / f.rnd (tf - t0))⟩, tau.map (f.scaled t0 tf))

end Flt

end CE
