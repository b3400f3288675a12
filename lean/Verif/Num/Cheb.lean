import Verif.Num.Basis
import Mathlib.Analysis.SpecialFunctions.Trigonometric.Basic

/-!
# `collocationPoints` and `cheb` (polynomial.py:28-34, 170-189), over the reals
-/

namespace CE

noncomputable section

/-- polynomial.py:32: `np.array([0]) if order == 0 else (1 - np.cos(np.pi * np.arange(order + 1) / order)) / 2`.
Simplification: exact real arithmetic (numpy: doubles). -/
def chebyshevPoints (order : ℕ) : List ℝ :=
  if order = 0 then [0]
  else (List.range (order + 1)).map fun (i : ℕ) => (1 - Real.cos (Real.pi * (i : ℝ) / (order : ℝ))) / 2

/-- `collocationPoints(order, scheme)` (polynomial.py:28-34).  `casadiPoints` stands for
`cs.collocation_points(order, scheme)` (external code, may raise). -/
def collocationPoints (casadiPoints : ℕ → String → Except PyErr (List ℝ)) (order : ℕ)
    (scheme : String) : Except PyErr (List ℝ) :=
  if scheme = "chebyshev" then .ok (chebyshevPoints order)
  else do
    let c ← casadiPoints order scheme
    pure (0 :: c)

/-- `cheb(N, t0, tf)` (polynomial.py:187-189): `basis.D / (tf - t0), tau * (tf - t0) + t0`. -/
def cheb (casadiPoints : ℕ → String → Except PyErr (List ℝ)) (N : ℕ) (t0 tf : ℝ) :
    Except PyErr (Mat ℝ × List ℝ) := do
  let tau ← collocationPoints casadiPoints N "chebyshev"
  let basis ← polynomialBasis tau
  pure (⟨basis.D.rows, basis.D.cols, fun i j => basis.D.e i j / (tf - t0)⟩,
    tau.map fun x => x * (tf - t0) + t0)

end

end CE
