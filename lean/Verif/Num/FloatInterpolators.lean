import Verif.Num.FloatCompose
import Verif.Num.FloatIntegral

/-!
# `barycentricInterpolator` and `polynomialInterpolator` in floating point

As in `Float.lean`, every elementary operation is followed by a rounding.  `np.linalg.solve` and `np.power` are parameters.
-/

namespace CE

/-- `barycentricInterpolator(x)(u, xq)` (polynomial.py:158-167) for a 2-D `u`. -/
noncomputable def Flt.barycentricInterpolator (f : Flt) (x : List ℝ) (u : Mat ℝ) (xq : List ℝ) : Except PyErr (Mat ℝ) := do
  let b ← f.polynomialBasis x
  let L ← f.interpolationMatrix b xq
  f.matDot u L.T

/-- `polynomialInterpolator(x)(u, xx)` (polynomial.py:146-155) for a 2-D `u`, see `polynomialInterpolator` in `Basis.lean`. -/
noncomputable def FltP.polynomialInterpolator (f : FltP) (solve : Mat ℝ → Mat ℝ → Except PyErr (Mat ℝ)) (x : List ℝ) (u : Mat ℝ)
    (xx : List ℝ) : Except PyErr (Mat ℝ) := do
  let n := x.length
  let X : Mat ℝ := ⟨n, n, fun i k => f.pow (nd x k) i⟩
  let R : Mat ℝ := ⟨n, xx.length, fun i q => f.pow (nd xx q) i⟩
  let W ← solve X R
  f.matDot u W

end CE
