import Verif.Num.Base
import Mathlib.Data.List.Basic

/-!
# numpy's `poly1d`

`polynomial.py` and `butcher.py` compute with `np.poly1d`.  This file models the part of numpy they use:
coefficient list, highest degree first, leading zeros trimmed, the zero polynomial being `[0]`.
Behaviour of numpy (trusted base): `poly1d.__init__` trims leading zeros, `*` is `np.convolve`,
`/ scalar` divides the coefficients, `+` is `np.polyadd`, `np.polyint`, evaluation by Horner's rule.
-/

namespace CE

variable {K : Type*}

/-- `np.poly1d` (its attribute `.coef`). -/
structure Poly1d (K : Type*) where
  coef : List K
  deriving DecidableEq, Repr

namespace Poly1d

variable [Field K] [DecidableEq K]

/-- `np.poly1d(c)`: leading zeros are removed, an empty result becomes `[0]`. -/
def ofCoeffs (c : List K) : Poly1d K :=
  match c.dropWhile (fun a => decide (a = 0)) with
  | [] => ⟨[0]⟩
  | t => ⟨t⟩

/-- Coefficient-wise sum of two lists aligned at the constant term (`np.polyadd` pads the shorter one with
zeros in front). -/
def addPad (a b : List K) : List K :=
  List.zipWith (· + ·)
    (List.replicate (b.length - a.length) 0 ++ a)
    (List.replicate (a.length - b.length) 0 ++ b)

/-- `np.convolve(a, b)` (full mode). -/
def convolve : List K → List K → List K
  | [], _ => []
  | a :: l, b => addPad (b.map (a * ·) ++ List.replicate l.length 0) (convolve l b)

/-- `p * q`. -/
def mul (p q : Poly1d K) : Poly1d K := ofCoeffs (convolve p.coef q.coef)

/-- `p / s` for a scalar. -/
def divs (p : Poly1d K) (s : K) : Poly1d K := ofCoeffs (p.coef.map (· / s))

/-- `s * p` for a scalar (numpy returns the coefficient array, which `+=` turns into a `poly1d` again). -/
def smul (s : K) (p : Poly1d K) : Poly1d K := ofCoeffs (p.coef.map (s * ·))

/-- `p + q`. -/
def add (p q : Poly1d K) : Poly1d K := ofCoeffs (addPad p.coef q.coef)

/-- `np.polyint(p)`: coefficients divided by `len, len-1, …, 1`, then the constant 0. -/
def polyint (p : Poly1d K) : Poly1d K :=
  ofCoeffs (List.zipWith (· / ·) p.coef
    ((List.range p.coef.length).reverse.map fun i => ((i + 1 : ℕ) : K)) ++ [0])

/-- `p(x)`: `np.polyval`, Horner's rule. -/
def eval (p : Poly1d K) (x : K) : K := p.coef.foldl (fun y c => y * x + c) 0

end Poly1d

end CE
