import Verif.Num.Dae
import Verif.Num.Butcher
import Verif.Num.PiecewisePoly

/-!
# `CollocationScheme` and `CollocationIntegrator` (collocation.py:243-566)

The expressions of the scheme are MX expressions (`MXExpr`) in the symbols that the constructor creates.  External code
enters as parameters: `casadiPoints` for `cs.collocation_points`, `csFunction` for `cs.Function`, `rootfinder` for
`cs.rootfinder`.  Simplifications: exact arithmetic over a field; dense expressions; `expand`, `parallelization` and
`options` (which do not change values) are left out; where CasADi accepts transposed, scalar or empty arguments in place
of an argument of the declared shape the model raises.
-/

namespace CE

variable {K : Type} [Field K]

namespace MXExpr

/-- The value of an expression under an assignment. -/
def at' (e : MXExpr K) (env : Env K) : Mat K := ⟨e.rows, e.cols, e.val env⟩

/-- A constant matrix. -/
def const (A : Mat K) : MXExpr K := ⟨A.rows, A.cols, false, fun _ => A.e⟩

/-- `a + b`: equal shapes, or a scalar operand (broadcast); RuntimeError otherwise.  Simplification: CasADi also repeats an
operand whose number of columns divides that of the other; this does not occur in the code that uses this definition. -/
def add (a b : MXExpr K) : Except PyErr (MXExpr K) :=
  if a.rows = b.rows ∧ a.cols = b.cols then
    .ok ⟨a.rows, a.cols, false, fun env i j => a.val env i j + b.val env i j⟩
  else if a.isScalar then .ok ⟨b.rows, b.cols, false, fun env i j => a.val env 0 0 + b.val env i j⟩
  else if b.isScalar then .ok ⟨a.rows, a.cols, false, fun env i j => a.val env i j + b.val env 0 0⟩
  else .error .runtime

/-- `cs.mtimes(a, b)`: a 1x1 factor multiplies elementwise, otherwise the inner dimensions must agree. -/
def mtimes (a b : MXExpr K) : Except PyErr (MXExpr K) :=
  if a.cols = b.rows then
    .ok ⟨a.rows, b.cols, false, fun env i j => ∑ k ∈ Finset.range a.cols, a.val env i k * b.val env k j⟩
  else if a.isScalar then .ok ⟨b.rows, b.cols, false, fun env i j => a.val env 0 0 * b.val env i j⟩
  else if b.isScalar then .ok ⟨a.rows, a.cols, false, fun env i j => a.val env i j * b.val env 0 0⟩
  else .error .runtime

/-- `c * a` for a number `c`. -/
def scale (c : K) (a : MXExpr K) : MXExpr K := ⟨a.rows, a.cols, false, fun env i j => c * a.val env i j⟩

/-- `a[:, s : s + n]`; out of bounds is a RuntimeError. -/
def colSlice (a : MXExpr K) (s n : ℕ) : Except PyErr (MXExpr K) :=
  if s + n ≤ a.cols then .ok ⟨a.rows, n, false, fun env i j => a.val env i (s + j)⟩ else .error .runtime

/-- `cs.repmat(a, 1, m)` -/
def repmatCols (a : MXExpr K) (m : ℕ) : MXExpr K :=
  ⟨a.rows, a.cols * m, false, fun env i j => a.val env i (j % a.cols)⟩

/-- `cs.horzcat(*l)`; different numbers of rows are a RuntimeError. -/
def horzcat (l : List (MXExpr K)) : Except PyErr (MXExpr K) :=
  match l with
  | [] => .ok ⟨0, 0, false, fun _ _ _ => 0⟩
  | a :: l => if l.all (fun b => b.rows = a.rows) then
      .ok ⟨a.rows, ((a :: l).map (·.cols)).sum, false,
        fun env i j => (Mat.hcat a.rows ((a :: l).map (·.at' env))).e i j⟩
    else .error .runtime

/-- `cs.diff(a, 1, 1)`: differences of neighbouring columns; no columns if there are fewer than two. -/
def diffCols (a : MXExpr K) : MXExpr K :=
  ⟨a.rows, a.cols - 1, false, fun env i j => a.val env i (j + 1) - a.val env i j⟩

end MXExpr

/-- `np.diff(t)` -/
def npDiff (t : List K) : List K := List.zipWith (fun a b => b - a) t t.tail

/-- `cs.DM.eye(n)` -/
def Mat.eye (n : ℕ) : Mat K := ⟨n, n, fun i j => if i = j then 1 else 0⟩

/-- `cs.DM.ones(r, c)` -/
def Mat.ones (r c : ℕ) : Mat K := ⟨r, c, fun _ _ => 1⟩

/-- `cs.diagcat(*h)` for numbers. -/
def Mat.diagcat (h : List K) : Mat K := ⟨h.length, h.length, fun i j => if i = j then nd h i else 0⟩

/-- `cs.kron(A, B)` -/
def Mat.kron (A B : Mat K) : Mat K :=
  ⟨A.rows * B.rows, A.cols * B.cols, fun i j => A.e (i / B.rows) (j / B.cols) * B.e (i % B.rows) (j % B.cols)⟩

/-- A 2-D numpy array as a matrix. -/
def NdArray.toMat (a : NdArray K) : Mat K := ⟨a.shape.getD 0 0, a.shape.getD 1 0, fun i j => a.e [i, j]⟩

/-- A 1-D numpy array as a column (conversion to `cs.DM`). -/
def NdArray.toCol (a : NdArray K) : Mat K := ⟨a.shape.getD 0 0, 1, fun i _ => a.e [i]⟩

/-- A 1-D numpy array as a list. -/
def NdArray.toList (a : NdArray K) : List K := (List.range (a.shape.getD 0 0)).map fun i => a.e [i]

/-- A numeric CasADi function: values of the arguments to values of the results. -/
abbrev CsFn (K : Type) := List (Mat K) → List (Mat K)

/-- `Dae.createFunction(name, in_arg, out_arg)` (dae_model.py:177-183). -/
def DaeObj.createFunction (csFunction : List (MXExpr K) → List (MXExpr K) → Except PyErr (CsFn K)) (o : DaeObj K)
    (inArg outArg : List String) : Except PyErr (CsFn K) := do
  let ins ← inArg.mapM o.getattr
  let outs ← outArg.mapM o.getattr
  csFunction ins outs

/-- The part of argument `a` that the mapped function hands to call number `c`: the whole argument if it is listed in
`reduce_in`, otherwise its columns `[c*w, (c+1)*w)`. -/
def mapBlock (w : ℕ) (reduced : Bool) (a : Mat K) (c : ℕ) : Mat K :=
  if reduced then a else a.colSlice (c * w) w

/-- An argument has the shape that the mapped function (`n` calls) expects. -/
def mapShapeOk (n : ℕ) (inp : MXExpr K × Bool) (a : MXExpr K) : Bool :=
  decide (a.rows = inp.1.rows ∧ a.cols = if inp.2 then inp.1.cols else inp.1.cols * n)

/-- Result number `k`, of shape `out`, of a call of `f.map(n, reduce_in, [])`: the results of the single calls side by
side. -/
def mapResult (F : CsFn K) (k : ℕ) (out : MXExpr K) (n : ℕ) (ins : List (MXExpr K × Bool)) (args : List (MXExpr K)) :
    MXExpr K :=
  ⟨out.rows, out.cols * n, false, fun env i j =>
    ((F (List.zipWith (fun inp a => mapBlock inp.1.cols inp.2 (a.at' env) (j / out.cols)) ins args)).getD k
      ⟨0, 0, fun _ _ => 0⟩).e i (j % out.cols)⟩

/-- `f.map(name, parallelization, n, reduce_in, [], options)` and its call with the given arguments. -/
def mapCall (F : CsFn K) (outs : List (MXExpr K)) (n : ℕ) (ins : List (MXExpr K × Bool)) (args : List (MXExpr K)) :
    Except PyErr (List (MXExpr K)) :=
  if n = 0 then .error .runtime
  else if (List.zipWith (mapShapeOk n) ins args).all id then
    .ok (outs.zipIdx.map fun ok => mapResult F ok.2 ok.1 n ins args)
  else .error .runtime

/-- The attributes of a `CollocationScheme` (collocation.py:346-362); `eq` is the struct with the entries
`collocation`, `continuity`, `param`. -/
structure Scheme (K : Type) where
  N : ℕ
  M : ℕ
  eqCollocation : MXExpr K
  eqContinuity : MXExpr K
  eqParam : MXExpr K
  x : MXExpr K
  X : MXExpr K
  /-- attribute `K` -/
  Kd : MXExpr K
  Z : MXExpr K
  U : MXExpr K
  u : MXExpr K
  quad : MXExpr K
  Q : MXExpr K
  q : MXExpr K
  p : MXExpr K
  tc : List K
  butcher : ButcherTableau K
  tdp : MXExpr K
  t : List K

namespace Scheme

/-- `eq` as a column: the struct's `.cat` (structure3.py:1100-1161 for dense entries). -/
def eq (s : Scheme K) : MXExpr K := MXExpr.structMX [s.eqCollocation, s.eqContinuity, s.eqParam]

/-- `numTotalCollocationPoints` (collocation.py:384-386) -/
def numTotalCollocationPoints (s : Scheme K) : ℕ := s.M * s.N

/-- collocation.py:334-338: element `n` of the list `q`. -/
def qAt (nq : ℕ) (quad : MXExpr K) (h : List K) (M : ℕ) (b : Mat K) : ℕ → Except PyErr (MXExpr K)
  | 0 => .ok (.const ⟨nq, 1, fun _ _ => 0⟩)
  | n + 1 => do
    let prev ← qAt nq quad h M b n
    let blk ← quad.colSlice (n * M) M
    let v ← blk.mtimes (.const b)
    prev.add (.scale (nd h n) v)

/-- collocation.py:282: input at the collocation points. -/
def inputsU (u : MXExpr K) (N M : ℕ) : Except PyErr (MXExpr K) := do
  let us ← (List.range N).mapM fun n => do
    let c ← u.colSlice n 1
    pure (c.repmatCols M)
  MXExpr.horzcat us

/-- collocation.py:290-296: `X` and `xf`. -/
def integrateState (x Ks : MXExpr K) (N M : ℕ) (h : List K) (B : ButcherTableau K) :
    Except PyErr (MXExpr K × MXExpr K) := do
  let Mx := Mat.kron (Mat.eye N) (Mat.ones 1 M)
  let MK := Mat.kron (Mat.diagcat h) B.A.toMat.T
  let xl ← x.colSlice 0 (x.cols - 1)
  let X1 ← xl.mtimes (.const Mx)
  let X2 ← Ks.mtimes (.const MK)
  let X ← X1.add X2
  let F1 ← Ks.mtimes (.const (Mat.kron (Mat.diagcat h) B.b.toCol))
  let xf ← xl.add F1
  pure (X, xf)

/-- collocation.py:300: `tc` (for at least one interval). -/
def collocationTimes (t h : List K) (B : ButcherTableau K) (N : ℕ) : List K :=
  ((List.range N).map fun n => B.c.toList.map fun c => nd t n + nd h n * c).flatten

/-- collocation.py:303-307: `tdp_val`. -/
def tdpValues (tdp_fun : Option (K → Mat K)) (dae : DaeObj K) (tc : List K) : Except PyErr (MXExpr K) :=
  match tdp_fun with
  | some f => MXExpr.horzcat (tc.map fun s => .const (f s))
  | none => if dae.ntdp ≠ 0 then .error .assertion else .ok (.const ⟨0, tc.length, fun _ _ => 0⟩)

/-- collocation.py:310-322: the DAE function mapped over `n` points; the results `dae` and `quad`. -/
def evalDae (csFunction : List (MXExpr K) → List (MXExpr K) → Except PyErr (CsFn K)) (dae : DaeObj K) (n : ℕ)
    (repeat_param : Bool) (args : List (MXExpr K)) : Except PyErr (MXExpr K × MXExpr K) := do
  let F ← dae.createFunction csFunction ["xdot", "x", "z", "u", "p", "t", "tdp"] ["dae", "quad"]
  let ins ← ["xdot", "x", "z", "u", "p", "t", "tdp"].mapM dae.getattr
  let outs ← ["dae", "quad"].mapM dae.getattr
  let res ← mapCall F outs n (ins.zip [false, false, false, false, !repeat_param, false, false]) args
  let d ← pyIndex res 0
  let q ← pyIndex res 1
  pure (d, q)

/-- collocation.py:333-342: `q` and `Q`. -/
def integrateQuad (nq : ℕ) (quad : MXExpr K) (N M : ℕ) (h : List K) (B : ButcherTableau K) :
    Except PyErr (MXExpr K × MXExpr K) := do
  let qs ← (List.range (N + 1)).mapM (qAt nq quad h M B.b.toCol)
  let q ← MXExpr.horzcat qs
  let ql ← q.colSlice 0 (q.cols - 1)
  let Q1 ← ql.mtimes (.const (Mat.kron (Mat.eye N) (Mat.ones 1 M)))
  let Q2 ← quad.mtimes (.const (Mat.kron (Mat.diagcat h) B.A.toMat.T))
  let Q ← Q1.add Q2
  pure (q, Q)

/-- `CollocationScheme.__init__` (collocation.py:248-362).  `fresh` gives the identities of the symbols created here,
`freshI` of those created by `makeImplicit`.  An empty `t` gives a negative size (RuntimeError); with no interval
`np.hstack([])` raises ValueError. -/
def new [DecidableEq K] (fresh freshI : String → ℕ)
    (casadiPoints : ℕ → String → Except PyErr (List K))
    (csFunction : List (MXExpr K) → List (MXExpr K) → Except PyErr (CsFn K))
    (dae : DaeObj K) (t : List K) (order : ℕ) (method : String := "legendre") (tdp_fun : Option (K → Mat K) := none)
    (repeat_param : Bool := false) : Except PyErr (Scheme K) := do
  let dae ← dae.makeImplicit freshI
  let M := order
  let N := t.length - 1
  if t = [] then .error .runtime else
  let Ks : MXExpr K := .sym (fresh "K") dae.nx (N * M)
  let Z : MXExpr K := .sym (fresh "Z") dae.nz (N * M)
  let x : MXExpr K := .sym (fresh "x") dae.nx (N + 1)
  let u : MXExpr K := .sym (fresh "u") dae.nu N
  let U ← inputsU u N M
  let butcher ← butcherTableuForCollocationMethod casadiPoints order method
  let h := npDiff t
  let Xf ← integrateState x Ks N M h butcher
  if N = 0 then .error .value else
  let tc := collocationTimes t h butcher N
  let tdp_val ← tdpValues tdp_fun dae tc
  let p : MXExpr K := .sym (fresh "P") dae.np (if repeat_param then N * M else 1)
  let out ← evalDae csFunction dae (N * M) repeat_param
    [Ks, Xf.1, Z, U, p, .const ⟨1, tc.length, fun _ j => nd tc j⟩, tdp_val]
  let xr ← x.colSlice 1 (x.cols - 1)
  let cont ← Xf.2.sub xr
  let q ← integrateQuad dae.nq out.2 N M h butcher
  pure
    { N := N, M := M, eqCollocation := out.1, eqContinuity := cont, eqParam := p.diffCols, x := x, X := Xf.1, Kd := Ks, Z := Z,
      U := U, u := u, quad := out.2, Q := q.2, q := q.1, p := p, tc := tc, butcher := butcher, tdp := tdp_val, t := t }

/-- `evalX(x, K)` (collocation.py:401-403): substitution of the symbols (identities `xId`, `KId`) by values; values of
another shape are a RuntimeError. -/
def evalX (fresh : String → ℕ) (s : Scheme K) (x Kv : Mat K) : Except PyErr (Mat K) :=
  if x.rows = s.x.rows ∧ x.cols = s.x.cols ∧ Kv.rows = s.Kd.rows ∧ Kv.cols = s.Kd.cols then
    .ok (s.X.at' fun id => if id = fresh "x" then x.e else if id = fresh "K" then Kv.e else fun _ _ => 0)
  else .error .runtime

/-- `piecewisePolyX(x, K)` (collocation.py:501-510) for `DM` arguments. -/
def piecewisePolyX [LinearOrder K] (fresh : String → ℕ) (s : Scheme K) (x Kv : Mat K) :
    Except PyErr (PiecewisePoly K) := do
  let X ← s.evalX fresh x Kv
  let coeff ← (List.range s.N).mapM fun n => hstack [x.colSlice n 1, X.colSlice (n * s.M) s.M]
  let basis ← polynomialBasis (0 :: s.butcher.c.toList)
  PiecewisePoly.new s.t coeff basis

/-- `getattr(self, w)` for the names admitted by `combine` (collocation.py:489-498). -/
def getattr (s : Scheme K) (w : String) : Except PyErr (MXExpr K) :=
  if w = "K" then .ok s.Kd
  else if w = "x" then .ok s.x
  else if w = "Z" then .ok s.Z
  else if w = "U" then .ok s.U
  else if w = "u" then .ok s.u
  else if w = "p" then .ok s.p
  else if w = "eq" then .ok s.eq
  else if w = "q" then .ok s.q
  else .error .assertion

/-- `combine(what)` (collocation.py:489-498): the struct as a list of named expressions in order; `struct_MX` raises if a name
is repeated (structure3.py:1359-1364).  C122 relates this list to the struct of `Struct/EntryDef.lean`. -/
def combine (s : Scheme K) (what : List String) : Except PyErr (List (String × MXExpr K)) := do
  let l ← what.mapM fun w => do
    let e ← s.getattr w
    pure (w, e)
  if what.Nodup then pure l else .error .generic

end Scheme

/-- The matrix of shape `r` x `c` whose elements in column-major order start at position `a` of `w`. -/
def Mat.ofVec (w : List K) (a r c : ℕ) : Mat K := ⟨r, c, fun i j => nd w (a + j * r + i)⟩

/-- A `CollocationIntegrator`: the scheme and the function that it hands to the root finder
(collocation.py:517-566). -/
structure Integrator (K : Type) where
  scheme : Scheme K
  nx : ℕ
  nz : ℕ
  /-- assignment that gives the unknowns the values in `w` and the other symbols their values -/
  env : List K → Mat K → Mat K → Env K
  /-- `eq(w, x0, u, p)` -/
  residual : List K → Mat K → Mat K → Mat K → List K
  /-- initial point for `x0`, `z0` -/
  w0 : Mat K → Mat K → List K

/-- The outputs of the integrator function (collocation.py:549-553); `none` is NaN. -/
structure IntegratorOut (K : Type) where
  xf : Mat K
  zf : List (Option K)
  qf : Mat K
  X : Mat K
  Z : Mat K
  Q : Mat K
  x : Mat K
  /-- output `K` -/
  Kd : Mat K
  tc : List K

/-- Column-major elements of a matrix (`vec`). -/
def Mat.vals (A : Mat K) : List K := (List.range (A.rows * A.cols)).map fun i => A.e (i % A.rows) (i / A.rows)

namespace Integrator

/-- The assignment of values to the symbols of the scheme. -/
def envOf (fresh : String → ℕ) (s : Scheme K) (w : List K) (u p : Mat K) : Env K := fun id =>
  if id = fresh "x" then (Mat.ofVec w 0 s.x.rows s.x.cols).e
  else if id = fresh "K" then (Mat.ofVec w s.x.numel s.Kd.rows s.Kd.cols).e
  else if id = fresh "Z" then (Mat.ofVec w (s.x.numel + s.Kd.numel) s.Z.rows s.Z.cols).e
  else if id = fresh "u" then u.e
  else if id = fresh "P" then p.e
  else fun _ _ => 0

/-- `CollocationIntegrator.__init__` (collocation.py:517-553).  The system must be square (checked by
`cs.rootfinder`).  The outputs `qf` and `Q` are built with the scheme's symbol `P`, which is not an input of the
integrator function; when there are parameters and quadratures the function has a free variable and CasADi raises. -/
def new [DecidableEq K] (fresh freshI : String → ℕ)
    (casadiPoints : ℕ → String → Except PyErr (List K))
    (csFunction : List (MXExpr K) → List (MXExpr K) → Except PyErr (CsFn K))
    (dae : DaeObj K) (t : List K) (order : ℕ) (method : String := "legendre") (tdp_fun : Option (K → Mat K) := none) :
    Except PyErr (Integrator K) := do
  let s ← Scheme.new fresh freshI casadiPoints csFunction dae t order method tdp_fun
  let var ← s.combine ["x", "K", "Z"]
  let x1 ← s.x.colSlice 0 1
  if (MXExpr.structMX (var.map (·.2))).rows ≠ s.eq.rows + x1.rows then .error .runtime else
  if dae.np ≠ 0 ∧ dae.nq ≠ 0 then .error .runtime else
  pure
    { scheme := s, nx := dae.nx, nz := dae.nz
      env := envOf fresh s
      residual := fun w x0 u p =>
        (s.eq.vals (envOf fresh s w u p)) ++
          (List.range dae.nx).map fun i => x1.val (envOf fresh s w u p) i 0 - x0.e i 0
      w0 := fun x0 z0 =>
        (⟨s.x.rows, s.x.cols, fun i _ => x0.e i 0⟩ : Mat K).vals ++
          (⟨s.Kd.rows, s.Kd.cols, fun _ _ => 0⟩ : Mat K).vals ++
          (⟨s.Z.rows, s.Z.cols, fun i _ => z0.e i 0⟩ : Mat K).vals }

/-- The call of the integrator function (collocation.py:540-553); `rootfinder f w0` is the solution found by
`cs.rootfinder('rf', 'newton', eq)` from the initial point `w0`, or an error. -/
def call (rootfinder : (List K → List K) → List K → Except PyErr (List K)) (g : Integrator K)
    (x0 z0 u p : Mat K) : Except PyErr (IntegratorOut K) := do
  let sol ← rootfinder (fun w => g.residual w x0 u p) (g.w0 x0 z0)
  let env := g.env sol u p
  let s := g.scheme
  let x := s.x.at' env
  pure
    { xf := ⟨x.rows, x.cols - 1, fun i j => x.e i (j + 1)⟩
      zf := List.replicate g.nz none
      qf := ⟨s.q.rows, 1, fun i _ => s.q.val env i (s.q.cols - 1)⟩
      X := s.X.at' env
      Z := s.Z.at' env
      Q := s.Q.at' env
      x := x
      Kd := s.Kd.at' env
      tc := s.tc }

/-- `integrate(...)` (collocation.py:556-566): the outputs and the trajectory `x_traj`. -/
def integrate [LinearOrder K] (fresh : String → ℕ)
    (rootfinder : (List K → List K) → List K → Except PyErr (List K)) (g : Integrator K)
    (x0 z0 u p : Mat K) : Except PyErr (IntegratorOut K × PiecewisePoly K) := do
  let out ← g.call rootfinder x0 z0 u p
  let tr ← g.scheme.piecewisePolyX fresh out.x out.Kd
  pure (out, tr)

end Integrator

end CE
