import Verif.Num.FloatPoly
import Verif.Num.PiecewisePoly

/-!
# `PolynomialBasis.compose` and `PiecewisePoly.poly` with rounding errors

The definitions of `Basis.lean` and `PiecewisePoly.lean` with rounded operations, see `Float.lean` and `FloatPoly.lean`.  The attribute `poly` of
the basis is not stored in `Flt.Basis`; it is a function of the nodes (`FltC.lagrangePoly`).
-/

namespace CE

/-- Floating point arithmetic with `np.power`, whose relative error is that of `powErr` roundings. -/
structure FltP extends FltC where
  powErr : ℕ
  pow : ℝ → ℕ → ℝ
  pow_spec : ∀ h k, ∃ g, (1 - u) ^ powErr ≤ g ∧ g ≤ 1 / (1 - u) ^ powErr ∧ pow h k = h ^ k * g

namespace FltC

variable (f : FltC)

/-- `s * p` for a scalar (numpy, `poly1d.__rmul__`). -/
noncomputable def psmul (s : ℝ) (p : Poly1d ℝ) : Poly1d ℝ := Poly1d.ofCoeffs (p.coef.map fun c => f.rnd (s * c))

/-- `p + q` (numpy, `np.polyadd`): the shorter array is padded with zeros in front. -/
noncomputable def padd (p q : Poly1d ℝ) : Poly1d ℝ :=
  Poly1d.ofCoeffs (List.zipWith (fun a b => f.rnd (a + b))
    (List.replicate (q.coef.length - p.coef.length) 0 ++ p.coef)
    (List.replicate (p.coef.length - q.coef.length) 0 ++ q.coef))

/-- polynomial.py:137-139: one polynomial of `compose`, for a basis with the nodes `tau`. -/
noncomputable def composeRow (tau : List ℝ) (c : Mat ℝ) (i : ℕ) : Except PyErr (Poly1d ℝ) :=
  (List.range c.cols).foldlM
    (fun q j => if j < tau.length then .ok (f.padd q (f.psmul (c.e i j) (f.lagrangePoly tau j))) else .error .index)
    (Poly1d.ofCoeffs [0])

/-- `PolynomialBasis.compose(c)` (polynomial.py:126-142). -/
noncomputable def compose (tau : List ℝ) (c : Mat ℝ) : Except PyErr (List (Poly1d ℝ)) := (List.range c.rows).mapM (f.composeRow tau c)

end FltC

namespace FltP

variable (f : FltP)

/-- piecewise_poly.py:128 for one polynomial, see `PiecewisePoly.rescale`. -/
noncomputable def rescale (h : ℝ) (order : ℕ) (p : Poly1d ℝ) : Except PyErr (Poly1d ℝ) :=
  if p.coef.length = order + 1 then
    .ok ⟨List.zipWith (fun c (k : ℕ) => f.rnd (c / f.pow h k)) p.coef (List.range (order + 1)).reverse⟩
  else .error .value

/-- `PiecewisePoly.poly(n)` (piecewise_poly.py:119-130). -/
noncomputable def poly (pp : Flt.Piecewise) (n : ℤ) : Except PyErr (List (Poly1d ℝ)) := do
  let c ← pyIndex pp.coefficients n
  let p ← f.compose pp.basis.tau c
  p.mapM fun p_i => do
    let b ← pyIndex pp.intervals (n + 1)
    let a ← pyIndex pp.intervals n
    f.rescale (f.rnd (b - a)) (pp.basis.tau.length - 1) p_i

end FltP

end CE
