import Verif.Num.FloatPoly
import Verif.Num.Scheme

/-!
# `CollocationScheme.__init__` with rounded coefficients

As in `Float.lean` and `FloatPoly.lean`, every elementary operation on numbers is followed by a rounding: the interval lengths, the Butcher
tableau, the integration matrices and the points in time are numbers (numpy or `cs.DM`) at construction time.  The attributes of the scheme
are expressions (`cs.MX`); their values, which depend on the evaluation by CasADi, are real numbers here, so that rounding during the
evaluation belongs to the tolerance up to which the equations are solved.  A product with a structural zero of a sparse `cs.DM` is a
structural zero; here it is the rounding of zero, which is zero.
-/

namespace CE

namespace FltC

variable (f : FltC)

/-- collocation.py:288: `np.diff(t)`. -/
noncomputable def npDiff (t : List ℝ) : List ℝ := List.zipWith (fun a b => f.rnd (b - a)) t t.tail

/-- `cs.kron(A, B)` of two numerical matrices. -/
noncomputable def kron (A B : Mat ℝ) : Mat ℝ :=
  ⟨A.rows * B.rows, A.cols * B.cols, fun i j => f.rnd (A.e (i / B.rows) (j / B.cols) * B.e (i % B.rows) (j % B.cols))⟩

/-- `butcherTableuForCollocationMethod(order, method)` (butcher.py:88-96). -/
noncomputable def butcherMethod (casadiPoints : ℕ → String → Except PyErr (List ℝ)) (order : ℕ) (method : String) :
    Except PyErr (ButcherTableau ℝ) := do
  let tau ← casadiPoints order method
  f.butcherTableau tau

/-- collocation.py:290-296: `X` and `xf`. -/
noncomputable def integrateState (x Ks : MXExpr ℝ) (N M : ℕ) (h : List ℝ) (B : ButcherTableau ℝ) :
    Except PyErr (MXExpr ℝ × MXExpr ℝ) := do
  let Mx := f.kron (Mat.eye N) (Mat.ones 1 M)
  let MK := f.kron (Mat.diagcat h) B.A.toMat.T
  let xl ← x.colSlice 0 (x.cols - 1)
  let X1 ← xl.mtimes (.const Mx)
  let X2 ← Ks.mtimes (.const MK)
  let X ← X1.add X2
  let F1 ← Ks.mtimes (.const (f.kron (Mat.diagcat h) B.b.toCol))
  let xf ← xl.add F1
  pure (X, xf)

/-- collocation.py:300: `tc`. -/
noncomputable def collocationTimes (t h : List ℝ) (B : ButcherTableau ℝ) (N : ℕ) : List ℝ :=
  ((List.range N).map fun n => B.c.toList.map fun c => f.rnd (nd t n + f.rnd (nd h n * c))).flatten

/-- collocation.py:333-342: `q` and `Q`. -/
noncomputable def integrateQuad (nq : ℕ) (quad : MXExpr ℝ) (N M : ℕ) (h : List ℝ) (B : ButcherTableau ℝ) :
    Except PyErr (MXExpr ℝ × MXExpr ℝ) := do
  let qs ← (List.range (N + 1)).mapM (Scheme.qAt nq quad h M B.b.toCol)
  let q ← MXExpr.horzcat qs
  let ql ← q.colSlice 0 (q.cols - 1)
  let Q1 ← ql.mtimes (.const (f.kron (Mat.eye N) (Mat.ones 1 M)))
  let Q2 ← quad.mtimes (.const (f.kron (Mat.diagcat h) B.A.toMat.T))
  let Q ← Q1.add Q2
  pure (q, Q)

/-- `CollocationScheme.__init__` (collocation.py:248-362), see `Scheme.new`. -/
noncomputable def schemeNew (fresh freshI : String → ℕ)
    (casadiPoints : ℕ → String → Except PyErr (List ℝ))
    (csFunction : List (MXExpr ℝ) → List (MXExpr ℝ) → Except PyErr (CsFn ℝ))
    (dae : DaeObj ℝ) (t : List ℝ) (order : ℕ) (method : String := "legendre") (tdp_fun : Option (ℝ → Mat ℝ) := none)
    (repeat_param : Bool := false) : Except PyErr (Scheme ℝ) := do
  let dae ← dae.makeImplicit freshI
  let M := order
  let N := t.length - 1
  if t = [] then .error .runtime else
  let Ks : MXExpr ℝ := .sym (fresh "K") dae.nx (N * M)
  let Z : MXExpr ℝ := .sym (fresh "Z") dae.nz (N * M)
  let x : MXExpr ℝ := .sym (fresh "x") dae.nx (N + 1)
  let u : MXExpr ℝ := .sym (fresh "u") dae.nu N
  let U ← Scheme.inputsU u N M
  let butcher ← f.butcherMethod casadiPoints order method
  let h := f.npDiff t
  let Xf ← f.integrateState x Ks N M h butcher
  if N = 0 then .error .value else
  let tc := f.collocationTimes t h butcher N
  let tdp_val ← Scheme.tdpValues tdp_fun dae tc
  let p : MXExpr ℝ := .sym (fresh "P") dae.np (if repeat_param then N * M else 1)
  let out ← Scheme.evalDae csFunction dae (N * M) repeat_param
    [Ks, Xf.1, Z, U, p, .const ⟨1, tc.length, fun _ j => nd tc j⟩, tdp_val]
  let xr ← x.colSlice 1 (x.cols - 1)
  let cont ← Xf.2.sub xr
  let q ← f.integrateQuad dae.nq out.2 N M h butcher
  pure
    { N := N, M := M, eqCollocation := out.1, eqContinuity := cont, eqParam := p.diffCols, x := x, X := Xf.1, Kd := Ks, Z := Z,
      U := U, u := u, quad := out.2, Q := q.2, q := q.1, p := p, tc := tc, butcher := butcher, tdp := tdp_val, t := t }

end FltC

end CE
