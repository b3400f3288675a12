import Verif.Struct.EntryDef

/-!
# Inequalities (inequality.py)

Expressions have elements of a type `E` (symbolic), bounds and nominal values are matrices of extended numbers.
Assumptions on CasADi: `DM(v)` of something that is no matrix, number or list of numbers raises, in particular `DM(None)`;
`vertcat` ignores 0x0 matrices and raises for different numbers of columns or an argument `None`.
-/

namespace CE.St

/-- Floating point numbers: numbers, the infinities and `nan`. -/
inductive Ext (K : Type)
  | ninf
  | fin (k : K)
  | pinf
  | nan
  deriving DecidableEq, Repr

namespace Ext
variable {K : Type}

instance [Zero K] : Zero (Ext K) := ⟨.fin 0⟩

/-- `-x` -/
def neg [Neg K] : Ext K → Ext K
  | .ninf => .pinf
  | .fin k => .fin (-k)
  | .pinf => .ninf
  | .nan => .nan

instance [Neg K] : Neg (Ext K) := ⟨neg⟩

instance [Add K] : Add (Ext K) where
  add a b := match a, b with
    | .fin x, .fin y => .fin (x + y)
    | .fin _, b => b
    | a, .fin _ => a
    | .ninf, .ninf => .ninf
    | .pinf, .pinf => .pinf
    | _, _ => .nan

instance [Sub K] : Sub (Ext K) where
  sub a b := match a, b with
    | .fin x, .fin y => .fin (x - y)
    | .fin _, .ninf => .pinf
    | .fin _, .pinf => .ninf
    | .fin _, .nan => .nan
    | a, .fin _ => a
    | .ninf, .pinf => .ninf
    | .pinf, .ninf => .pinf
    | _, _ => .nan

end Ext

/-- The attribute `expr` of an inequality: an `MX` or a `struct_MX`. -/
inductive ExprObj (E : Type)
  | mx (m : SMat E)
  | st (o : VObj E)

/-- A bound or nominal value: a `DM` or a `DMStruct`. -/
inductive BObj (K : Type)
  | dm (m : SMat (Ext K))
  | st (o : Obj (Ext K))

/-- An argument for a bound or nominal value: something for `DM(...)`, or a `DMStruct`. -/
inductive BArg (K : Type)
  | pay (p : Pay (Ext K))
  | st (o : Obj (Ext K))

/-- `Inequality` (inequality.py:31) -/
structure Ineq (E K : Type) where
  expr : ExprObj E
  lb : BObj K
  ub : BObj K
  nominal : Option (BObj K)

variable {E K : Type}

/-- `expr.shape`; for a struct see structure3.py:926-928. -/
def ExprObj.shape : ExprObj E → ℕ × ℕ
  | .mx m => (m.sp.rows, m.sp.cols)
  | .st o => (o.cs.size, 1)

/-- `expr.numel()`; for a struct see structure3.py:1149-1150. -/
def ExprObj.numel : ExprObj E → ℕ
  | .mx m => m.sp.rows * m.sp.cols
  | .st o => o.cs.size

/-- The expression as an `MX` (for a struct by `__MX__`, structure3.py:1137-1138). -/
def ExprObj.toMX : ExprObj E → Except PyErr (SMat E)
  | .mx m => .ok m
  | .st o => o.master.map .col

/-- `lb.shape`; for a struct see structure3.py:926-928. -/
def BObj.shape : BObj K → ℕ × ℕ
  | .dm m => (m.sp.rows, m.sp.cols)
  | .st o => (o.cs.size, 1)

/-- The value as a `DM` (for a struct by `__DM__`, structure3.py:1078-1079). -/
def BObj.toDM : BObj K → SMat (Ext K)
  | .dm m => m
  | .st o => .col o.master

/-- `_convertToDmIfNotDmStruct` (inequality.py:27-28) -/
def BArg.convert : BArg K → Except PyErr (BObj K)
  | .st o => .ok (.st o)
  | .pay p => p.toMat.map .dm

/-- `DM.inf(shape)` -/
def dmInf (shape : ℕ × ℕ) : SMat (Ext K) := .fill (.dense shape.1 shape.2) fun _ => .pinf

/-- `-m` -/
def SMat.neg {V : Type} [Neg V] (m : SMat V) : SMat V := ⟨m.sp, m.data.map fun x => -x⟩

/-- The bound: the default or the converted argument (inequality.py:40-41). -/
def boundOr (default : SMat (Ext K)) : Option (BArg K) → Except PyErr (BObj K)
  | none => .ok (.dm default)
  | some a => a.convert

/-- The nominal value (inequality.py:45-47). -/
def nominalOr (shape : ℕ × ℕ) : Option (BArg K) → Except PyErr (Option (BObj K))
  | none => .ok none
  | some a => match a.convert with
    | .error e => .error e
    | .ok n => if n.shape = shape then .ok (some n) else .error .assertion

/-- `Inequality.__new__(expr, lb, ub, nominal)` (inequality.py:35-49) -/
def newIneq [Neg K] (expr : ExprObj E) (lb ub nominal : Option (BArg K)) : Except PyErr (Ineq E K) := do
  let lb ← boundOr (dmInf expr.shape).neg lb
  let ub ← boundOr (dmInf expr.shape) ub
  if lb.shape = expr.shape ∧ ub.shape = expr.shape then
    (nominalOr expr.shape nominal).map fun n => ⟨expr, lb, ub, n⟩
  else .error .assertion

/-- `Inequality()`: the default expression is `MX.sym('empty', 0)`, a 0x1 matrix (inequality.py:35). -/
def emptyIneq [Neg K] : Except PyErr (Ineq E K) := newIneq (.mx ⟨.dense 0 1, []⟩) none none none

/-- `numel` (inequality.py:52-55) -/
def Ineq.numel (i : Ineq E K) : ℕ := i.expr.numel

/-- A value as argument. -/
def BObj.arg : BObj K → BArg K
  | .dm m => .pay (.mat m)
  | .st o => .st o

/-- `BoundedVariable.__new__(name, lb, ub, nominal)` (inequality.py:62-63) for a `nominal` that is a `DM` or `DMStruct`; `fresh`
are the elements of the new symbol. -/
def boundedVariable [Neg K] (fresh : ℕ × ℕ → E) (lb ub : Option (BArg K)) (nominal : BObj K) : Except PyErr (Ineq E K) :=
  newIneq (.mx (.fill (.dense nominal.shape.1 nominal.shape.2) fresh)) lb ub (some nominal.arg)

/-- The structural nonzero at `(i, j)` of matrices one above the other. -/
def nzStack {V : Type} : List (SMat V) → ℕ → ℕ → Option V
  | [], _, _ => none
  | m :: ms, i, j => if i < m.sp.rows then m.nzAt (i, j) else nzStack ms (i - m.sp.rows) j

/-- A 0x0 matrix. -/
def SMat.isVoid {V : Type} (m : SMat V) : Bool := m.sp.rows = 0 ∧ m.sp.cols = 0

/-- `cs.vertcat` of matrices.  Simplification: no arguments raise (the type of the result of CasADi is not modelled). -/
def vcat {V : Type} (l : List (SMat V)) : Except PyErr (SMat V) :=
  if l.isEmpty then .error .runtime
  else match l.filter fun m => !m.isVoid with
    | [] => .ok ⟨.dense 0 0, []⟩
    | m :: ms =>
      if ms.all fun x => x.sp.cols = m.sp.cols then
        let n := ((m :: ms).map fun x => x.sp.rows).sum
        let pos := (Sparsity.positions n m.sp.cols).filterMap fun p => (nzStack (m :: ms) p.1 p.2).map fun v => (p, v)
        .ok ⟨⟨n, m.sp.cols, pos.map (·.1)⟩, pos.map (·.2)⟩
      else .error .runtime

/-- An argument of `vertcat` that may be `None`. -/
def nominalDM (i : Ineq E K) : Except PyErr (SMat (Ext K)) :=
  match i.nominal with
  | none => .error .type
  | some n => .ok n.toDM

/-- `vertcat(ineq)` for a list (inequality.py:75-81) -/
def vertcatList [Neg K] (l : List (Ineq E K)) : Except PyErr (Ineq E K) := do
  let exprs ← l.mapM fun a => a.expr.toMX
  let expr ← vcat exprs
  let lb ← vcat (l.map fun a => a.lb.toDM)
  let ub ← vcat (l.map fun a => a.ub.toDM)
  let noms ← l.mapM nominalDM
  let nominal ← vcat noms
  newIneq (.mx expr) (some (.pay (.mat lb))) (some (.pay (.mat ub))) (some (.pay (.mat nominal)))

/-- `entry(k, expr=v.expr)` (inequality.py:71).  Simplification: a struct as expression is replaced by its expressions at this
time. -/
def ineqEntry (kv : String × Ineq E K) : Except PyErr (EntryDef E) := do
  let m ← kv.2.expr.toMX
  newEntry { name := kv.1, expr := some (.mat m) }

/-- The nominal value, or `None`. -/
def nominalPay (i : Ineq E K) : Pay (Ext K) :=
  match i.nominal with
  | none => .none
  | some n => .mat n.toDM

/-- `vertcat(ineq)` for a dict with strings as keys (inequality.py:70-74, 81) -/
def vertcatDict [Zero K] [Neg K] (l : List (String × Ineq E K)) : Except PyErr (Ineq E K) := do
  let entries ← l.mapM ineqEntry
  let expr ← newVeccat (entries.map .one) none
  let lb ← callDM .nan expr.cs (.dict (l.map fun kv => (kv.1, .mat kv.2.lb.toDM)))
  let ub ← callDM .nan expr.cs (.dict (l.map fun kv => (kv.1, .mat kv.2.ub.toDM)))
  let nominal ← callDM .nan expr.cs (.dict (l.map fun kv => (kv.1, nominalPay kv.2)))
  newIneq (.st expr) (some (.st lb)) (some (.st ub)) (some (.st nominal))

end CE.St
