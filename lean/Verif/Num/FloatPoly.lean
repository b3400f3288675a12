import Verif.Num.Float
import Verif.Num.Butcher

/-!
# `np.poly1d` and the Butcher tableau with rounding errors

`Poly1d.lean` and `Butcher.lean` with rounded operations, see `Float.lean`.
-/

namespace CE

/-- The pairs of coefficients whose products add up to entry `k` of `np.convolve(a, b)`. -/
noncomputable def convPairs (a b : List ℝ) (k : ℕ) : List (ℝ × ℝ) :=
  ((List.range b.length).filter fun s => decide (s ≤ k ∧ k - s < a.length)).map fun s => (nd a (k - s), nd b s)

/-- Floating point arithmetic with `np.convolve`, whose entries are inner products in some order. -/
structure FltC extends Flt where
  conv : List ℝ → List ℝ → ℕ → ℝ
  conv_spec : ∀ a b k, DotOf toRounding (convPairs a b k) (conv a b k)

namespace FltC

variable (f : FltC)

/-- `p * q` (numpy, `poly1d.__mul__`): `np.poly1d(np.convolve(p, q))`. -/
noncomputable def pmul (p q : Poly1d ℝ) : Poly1d ℝ :=
  Poly1d.ofCoeffs ((List.range (p.coef.length + q.coef.length - 1)).map (f.conv p.coef q.coef))

/-- `p / s` for a scalar. -/
noncomputable def pdivs (p : Poly1d ℝ) (s : ℝ) : Poly1d ℝ := Poly1d.ofCoeffs (p.coef.map fun c => f.rnd (c / s))

/-- `np.polyint(p)`: coefficients divided by `len, len-1, ..., 1`, then the constant 0. -/
noncomputable def polyint (p : Poly1d ℝ) : Poly1d ℝ :=
  Poly1d.ofCoeffs (List.zipWith (fun c k => f.rnd (c / k)) p.coef
    ((List.range p.coef.length).reverse.map fun i => ((i + 1 : ℕ) : ℝ)) ++ [0])

/-- `p(x)`: `np.polyval`, Horner's rule, products and sums are rounded separately. -/
noncomputable def peval (p : Poly1d ℝ) (x : ℝ) : ℝ := p.coef.foldl (fun y c => f.rnd (f.rnd (y * x) + c)) 0

/-- polynomial.py:54-61 and butcher.py:75-78, one Lagrange polynomial (changing the sign of `tau[r]` is exact). -/
noncomputable def lagrangePoly (tau : List ℝ) (j : ℕ) : Poly1d ℝ :=
  (List.range tau.length).foldl
    (fun p r => if r ≠ j then f.pmul p (f.pdivs (Poly1d.ofCoeffs [1, -(nd tau r)]) (f.rnd (nd tau j - nd tau r))) else p)
    (Poly1d.ofCoeffs [1])

/-- `butcherTableuForCollocationPoints(tau)` (butcher.py:64-85). -/
noncomputable def butcherTableau (tau : List ℝ) : Except PyErr (ButcherTableau ℝ) :=
  let order := tau.length
  let pint := fun j => f.polyint (f.lagrangePoly tau j)
  ButcherTableau.new
    (NdArray.mat2 order order fun i j => f.peval (pint j) (nd tau i))
    (NdArray.vec ((List.range order).map fun j => f.peval (pint j) 1))
    (NdArray.vec tau)

end FltC

end CE
