import Verif.Num.FloatPdq

/-!
# `Pdq.integral` in floating point

As in `Float.lean`, every elementary operation is followed by a rounding.  `cs.solve` is a parameter.
-/

namespace CE

namespace Flt

variable (f : Flt)

/-- One pass of the loop of `Pdq.integral` (collocation.py:160-169), see `Pdq.integralStep` in `Pdq.lean`; the state is `(k, y0, y)`. -/
noncomputable def integralStep (solve : Mat ℝ → Mat ℝ → Except PyErr (Mat ℝ)) (dy : Mat ℝ) (s : ℕ × (ℕ → ℝ) × List (Mat ℝ)) (b : Basis) :
    Except PyErr (ℕ × (ℕ → ℝ) × List (Mat ℝ)) := do
  let n := b.tau.length - 1
  if s.1 + n > dy.cols then .error .runtime
  else do
    let w ← solve b.D.dropLastRowFirstCol (dy.colSlice s.1 n).T
    let y : Mat ℝ := ⟨w.cols, w.rows, fun i j => f.rnd (w.e j i + s.2.1 i)⟩
    if y.cols = 0 then .error .runtime
    else pure (s.1 + n, fun i => y.e i (y.cols - 1), s.2.2 ++ [y])

/-- `Pdq.integral(dy)` (collocation.py:153-171). -/
noncomputable def Grid.integral (solve : Mat ℝ → Mat ℝ → Except PyErr (Mat ℝ)) (p : Grid) (dy : Mat ℝ) : Except PyErr (Mat ℝ) := do
  let s ← p.basis.foldlM (f.integralStep solve dy) (0, fun _ => 0, [])
  pure (Mat.hcat dy.rows s.2.2)

/-- Assumption on `cs.solve` for square matrices: the solutions it returns have the right shape and solve the equations up to a residual of at
most `b` relative rounding errors of the terms of each equation. -/
def Solves (b : ℕ) (solve : Mat ℝ → Mat ℝ → Except PyErr (Mat ℝ)) : Prop :=
  ∀ A B W : Mat ℝ, A.rows = A.cols → B.rows = A.rows → solve A B = .ok W → W.rows = A.cols ∧ W.cols = B.cols ∧
    ∀ i < A.rows, ∀ j < B.cols, |∑ k ∈ Finset.range A.cols, A.e i k * W.e k j - B.e i j| ≤
      (1 / (1 - f.u) ^ b - 1) * ∑ k ∈ Finset.range A.cols, |A.e i k * W.e k j|

end Flt

end CE
