import Verif.Num.Base
import Mathlib.Algebra.Order.BigOperators.Group.List

/-!
# `dae_model.py`

An MX expression is modelled by its shape, the answer of `is_valid_input()` and its value under every assignment of
values to the symbols.  Simplifications: dense expressions only; a symbol is a number (its identity); the names of
symbols are not modelled.  Symbols that the code creates itself (`cs.MX.sym`) get their identity from the parameter
`fresh`.
-/

namespace CE

variable {K : Type} [Field K]

/-- Assignment of values to symbols: symbol, row, column. -/
abbrev Env (K : Type) := ℕ → ℕ → ℕ → K

/-- An MX expression. -/
structure MXExpr (K : Type) where
  rows : ℕ
  cols : ℕ
  validInput : Bool
  val : Env K → ℕ → ℕ → K

namespace MXExpr

/-- `is_column()` -/
def isColumn (e : MXExpr K) : Bool := decide (e.cols = 1)

/-- `is_scalar()` -/
def isScalar (e : MXExpr K) : Bool := decide (e.rows = 1 ∧ e.cols = 1)

/-- `numel()` -/
def numel (e : MXExpr K) : ℕ := e.rows * e.cols

/-- `cs.MX.sym(name, rows, cols)` with identity `id` -/
def sym (id rows : ℕ) (cols : ℕ := 1) : MXExpr K := ⟨rows, cols, true, fun env => env id⟩

/-- `a - b`: equal shapes, or a scalar operand (broadcast); RuntimeError otherwise.  Simplification: CasADi also repeats an
operand whose number of columns divides that of the other; this does not occur in the code that uses this definition. -/
def sub (a b : MXExpr K) : Except PyErr (MXExpr K) :=
  if a.rows = b.rows ∧ a.cols = b.cols then
    .ok ⟨a.rows, a.cols, false, fun env i j => a.val env i j - b.val env i j⟩
  else if a.isScalar then .ok ⟨b.rows, b.cols, false, fun env i j => a.val env 0 0 - b.val env i j⟩
  else if b.isScalar then .ok ⟨a.rows, a.cols, false, fun env i j => a.val env i j - b.val env 0 0⟩
  else .error .runtime

/-- `cs.vertcat(a, b)`: equal numbers of columns; 0-by-0 arguments are skipped; RuntimeError otherwise. -/
def vertcat2 (a b : MXExpr K) : Except PyErr (MXExpr K) :=
  if a.cols = b.cols then
    .ok ⟨a.rows + b.rows, a.cols, a.validInput && b.validInput,
      fun env i j => if i < a.rows then a.val env i j else b.val env (i - a.rows) j⟩
  else if a.rows = 0 ∧ a.cols = 0 then .ok b
  else if b.rows = 0 ∧ b.cols = 0 then .ok a
  else .error .runtime

/-- The elements in column-major order (`vec`) under an assignment. -/
def vals (e : MXExpr K) (env : Env K) : List K :=
  (List.range (e.rows * e.cols)).map fun i => e.val env (i % e.rows) (i / e.rows)

/-- The column `struct_MX([entry('model_i', expr=e_i), ...])` used as an expression (structure3.py:1100-1161 for
dense expressions): `vertcat` of the `vec`s; `is_column()` is true, `is_valid_input()` that of the concatenation. -/
def structMX (l : List (MXExpr K)) : MXExpr K :=
  ⟨(l.map numel).sum, 1, l.all (·.validInput), fun env i _ => nd (l.map (·.vals env)).flatten i⟩

end MXExpr

/-- The keyword arguments of the constructors that the code looks at. -/
structure DaeArgs (K : Type) where
  x : Option (MXExpr K) := none
  z : Option (MXExpr K) := none
  u : Option (MXExpr K) := none
  p : Option (MXExpr K) := none
  t : Option (MXExpr K) := none
  quad : Option (MXExpr K) := none
  tdp : Option (MXExpr K) := none
  ode : Option (MXExpr K) := none
  alg : Option (MXExpr K) := none
  xdot : Option (MXExpr K) := none
  dae : Option (MXExpr K) := none

/-- Class of the object with the attributes of the subclass. -/
inductive DaeKind (K : Type)
  | base
  | semi (ode alg : MXExpr K)
  | implicit (xdot dae : MXExpr K)

/-- An instance of `Dae` or of a subclass. -/
structure DaeObj (K : Type) where
  x : MXExpr K
  z : MXExpr K
  u : MXExpr K
  p : MXExpr K
  t : MXExpr K
  quad : MXExpr K
  tdp : MXExpr K
  kind : DaeKind K

/-- dae_model.py:46-55, 57-66: an optional column of symbols. -/
def checkColumnSym (e : Option (MXExpr K)) (dflt : MXExpr K) : Except PyErr (MXExpr K) :=
  match e with
  | some z =>
    if ¬ z.isColumn then .error .value
    else if ¬ z.validInput then .error .value
    else .ok z
  | none => .ok dflt

/-- dae_model.py:68-75, 94-101: an optional symbolic argument. -/
def checkSym (e : Option (MXExpr K)) (dflt : MXExpr K) : Except PyErr (MXExpr K) :=
  match e with
  | some p => if ¬ p.validInput then .error .value else .ok p
  | none => .ok dflt

/-- dae_model.py:77-87 -/
def checkTime (e : Option (MXExpr K)) (dflt : MXExpr K) : Except PyErr (MXExpr K) :=
  match e with
  | some t =>
    if ¬ t.validInput then .error .value
    else if ¬ t.isScalar then .error .value
    else .ok t
  | none => .ok dflt

/-- `Dae.__init__` (dae_model.py:32-109). -/
def DaeObj.newBase (fresh : String → ℕ) (kw : DaeArgs K) : Except PyErr (DaeObj K) :=
  match kw.x with
  | none => .error .key
  | some x =>
    if ¬ x.isColumn then .error .value
    else if ¬ x.validInput then .error .value
    else do
      let z ← checkColumnSym kw.z (MXExpr.sym (fresh "z") 0)
      let u ← checkColumnSym kw.u (MXExpr.sym (fresh "u") 0)
      let p ← checkSym kw.p (MXExpr.sym (fresh "p") 0)
      let t ← checkTime kw.t (MXExpr.sym (fresh "t") 1)
      let quad := kw.quad.getD (MXExpr.sym (fresh "quad") 0)
      let tdp ← checkSym kw.tdp (MXExpr.sym (fresh "tdp") 0)
      pure ⟨x, z, u, p, t, quad, tdp, .base⟩

/-- dae_model.py:204-213 -/
def checkAlg (fresh : String → ℕ) (z : MXExpr K) (e : Option (MXExpr K)) : Except PyErr (MXExpr K) :=
  match e with
  | some alg =>
    if ¬ alg.isColumn then .error .value
    else if z.numel ≠ alg.numel then .error .value
    else .ok alg
  | none => .ok (MXExpr.sym (fresh "alg") 0)

/-- `SemiExplicitDae.__init__` (dae_model.py:189-216). -/
def DaeObj.newSemi (fresh : String → ℕ) (kw : DaeArgs K) : Except PyErr (DaeObj K) := do
  let o ← DaeObj.newBase fresh kw
  match kw.ode with
  | none => .error .key
  | some ode =>
    if ¬ ode.isColumn then .error .value
    else if o.x.numel ≠ ode.numel then .error .value
    else do
      let alg ← checkAlg fresh o.z kw.alg
      pure { o with kind := .semi ode alg }

/-- `ImplicitDae.__init__` (dae_model.py:242-266). -/
def DaeObj.newImplicit (fresh : String → ℕ) (kw : DaeArgs K) : Except PyErr (DaeObj K) := do
  let o ← DaeObj.newBase fresh kw
  match kw.xdot with
  | none => .error .key
  | some xdot =>
    if ¬ xdot.isColumn then .error .value
    else if o.x.numel ≠ xdot.numel then .error .value
    else match kw.dae with
      | none => .error .key
      | some dae =>
        if ¬ dae.isColumn then .error .value
        else if o.z.numel + xdot.numel ≠ dae.numel then .error .value
        else pure { o with kind := .implicit xdot dae }

namespace DaeObj

/-- `nx`, `nz`, `nu`, `np`, `ntdp`, `nq` (dae_model.py:147-174) -/
def nx (o : DaeObj K) : ℕ := o.x.numel
/-- dae_model.py:152-154 -/
def nz (o : DaeObj K) : ℕ := o.z.numel
/-- dae_model.py:157-159 -/
def nu (o : DaeObj K) : ℕ := o.u.numel
/-- dae_model.py:162-164 -/
def np (o : DaeObj K) : ℕ := o.p.numel
/-- dae_model.py:167-169 -/
def ntdp (o : DaeObj K) : ℕ := o.tdp.numel
/-- dae_model.py:172-174 -/
def nq (o : DaeObj K) : ℕ := o.quad.numel

/-- Attribute access by name (the properties of the classes); AttributeError if the class has no such property. -/
def getattr (o : DaeObj K) (name : String) : Except PyErr (MXExpr K) :=
  if name = "x" then .ok o.x
  else if name = "z" then .ok o.z
  else if name = "u" then .ok o.u
  else if name = "p" then .ok o.p
  else if name = "t" then .ok o.t
  else if name = "quad" then .ok o.quad
  else if name = "tdp" then .ok o.tdp
  else match o.kind with
    | .base => .error .attribute
    | .semi ode alg =>
      if name = "ode" then .ok ode else if name = "alg" then .ok alg else .error .attribute
    | .implicit xdot dae =>
      if name = "xdot" then .ok xdot else if name = "dae" then .ok dae else .error .attribute

/-- `makeImplicit()` (dae_model.py:229-235 and 279-282); the base class has no such method. -/
def makeImplicit (fresh : String → ℕ) (o : DaeObj K) : Except PyErr (DaeObj K) :=
  match o.kind with
  | .base => .error .attribute
  | .implicit _ _ => .ok o
  | .semi ode alg => do
    let xdot : MXExpr K := MXExpr.sym (fresh "xdot") o.nx
    let d ← xdot.sub ode
    let dae ← d.vertcat2 alg
    DaeObj.newImplicit fresh
      { xdot := some xdot, x := some o.x, z := some o.z, u := some o.u, p := some o.p, t := some o.t,
        dae := some dae, quad := some o.quad, tdp := some o.tdp }

end DaeObj

/-- `parallel(models)` (dae_model.py:285-293) for a non-empty list of models.  Simplification: the stacked
expressions are the columns `MXExpr.structMX` (the struct access by name is not part of this model). -/
def parallel (fresh : String → ℕ) (models : List (DaeObj K)) : Except PyErr (DaeObj K) := do
  let x ← models.mapM (·.getattr "x")
  let z ← models.mapM (·.getattr "z")
  let u ← models.mapM (·.getattr "u")
  let p ← models.mapM (·.getattr "p")
  let ode ← models.mapM (·.getattr "ode")
  let alg ← models.mapM (·.getattr "alg")
  let quad ← models.mapM (·.getattr "quad")
  DaeObj.newBase fresh
    { x := some (.structMX x), z := some (.structMX z), u := some (.structMX u), p := some (.structMX p),
      ode := some (.structMX ode), alg := some (.structMX alg), quad := some (.structMX quad) }

end CE
