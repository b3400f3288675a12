import Verif.Num.Arrays

/-!
# Values used by the struct framework (structure3.py)

Sparsity patterns and sparse matrices of CasADi, canonical indices, power indices, payloads and results.  Entry names are
strings and repeat counts are natural numbers.
-/

namespace CE.St

/-- An element of a canonical index: a name or a repeat number (structure3.py:46-48). -/
inductive Key
  | str (s : String)
  | int (i : ℤ)
  deriving DecidableEq, Repr

/-- `is_string` (structure3.py:40-41) -/
def Key.isStr : Key → Bool
  | .str _ => true
  | .int _ => false

/-- A canonical index (structure3.py:47). -/
abbrev CIdx := List Key

/-- A CasADi `Sparsity`: the shape and the positions (row, column) of the structural nonzeros, column by column. -/
structure Sparsity where
  rows : ℕ
  cols : ℕ
  nz : List (ℕ × ℕ)
  deriving DecidableEq, Repr

namespace Sparsity

/-- `Sparsity.nnz()` -/
def nnz (s : Sparsity) : ℕ := s.nz.length

/-- All positions of a matrix of shape `r` x `c`, column by column. -/
def positions (r c : ℕ) : List (ℕ × ℕ) := (List.range c).flatMap fun j => (List.range r).map fun i => (i, j)

/-- `Sparsity.dense(r, c)` -/
def dense (r : ℕ) (c : ℕ := 1) : Sparsity := ⟨r, c, positions r c⟩

/-- The pattern with the nonzeros that satisfy `f`, in canonical order. -/
def ofPred (r c : ℕ) (f : ℕ × ℕ → Bool) : Sparsity := ⟨r, c, (positions r c).filter f⟩

/-- `Sparsity.upper(n)` -/
def upper (n : ℕ) : Sparsity := ofPred n n fun p => p.1 ≤ p.2

/-- `a * b` for patterns: the intersection (only used for equal shapes). -/
def inter (a b : Sparsity) : Sparsity := ⟨a.rows, a.cols, a.nz.filter (· ∈ b.nz)⟩

/-- `sp.T` -/
def T (s : Sparsity) : Sparsity := ofPred s.cols s.rows fun p => (p.2, p.1) ∈ s.nz

/-- `is_dense()` -/
def isDense (s : Sparsity) : Bool := s.nz.length = s.rows * s.cols

/-- A pattern as CasADi keeps it: positions inside the shape, sorted column by column (in particular distinct). -/
def Canon (s : Sparsity) : Prop := s.nz.Sublist (positions s.rows s.cols)

end Sparsity

/-- A CasADi matrix (`DM`, `MX`, `SX`): a pattern and the values of its nonzeros. -/
structure SMat (V : Type) where
  sp : Sparsity
  data : List V
  deriving DecidableEq, Repr

/-- An index matrix: a `DM` whose nonzeros are positions in `master`. -/
abbrev IMat := SMat ℕ

namespace SMat
variable {V : Type}

/-- The nonzero at a position, if it is a structural nonzero. -/
def nzAt (m : SMat V) (p : ℕ × ℕ) : Option V := (m.sp.nz.zip m.data).lookup p

/-- The value at a position. -/
def at' [Zero V] (m : SMat V) (p : ℕ × ℕ) : V := (m.nzAt p).getD 0

/-- The matrix with pattern `s` and the given values. -/
def fill (s : Sparsity) (f : ℕ × ℕ → V) : SMat V := ⟨s, s.nz.map f⟩

/-- `m.T` -/
def T (m : SMat V) : SMat V :=
  ⟨m.sp.T, m.sp.T.nz.filterMap fun p => m.nzAt (p.2, p.1)⟩

/-- `m[sp]` / `project(m, sp)` for a pattern of the same shape. -/
def project [Zero V] (m : SMat V) (s : Sparsity) : SMat V := fill s m.at'

/-- `m.is_scalar()` -/
def isScalar (m : SMat V) : Bool := m.sp.rows = 1 ∧ m.sp.cols = 1

/-- A 1x1 matrix. -/
def scalar (v : V) : SMat V := ⟨.dense 1 1, [v]⟩

/-- A dense column. -/
def col (l : List V) : SMat V := ⟨.dense l.length, l⟩

/-- As many values as structural nonzeros, canonical pattern. -/
def WF (m : SMat V) : Prop := m.sp.Canon ∧ m.data.length = m.sp.nz.length

end SMat

/-- A nested result of a traversal. -/
inductive Tree (R : Type)
  | leaf (r : R)
  | list (l : List (Tree R))
  | dict (l : List (String × Tree R))

/-- A Python callable used inside a power index: what it does to values and what it does to index matrices. -/
structure PyFn (V : Type) where
  onVal : Tree (SMat V) → Except PyErr (Tree (SMat V))
  onIdx : Tree IMat → Except PyErr IMat

/-- An element of a power index (structure3.py:48); `F` is the type of callables.  `set` lists the elements in the order in
which Python iterates over the set; `index` and `indexf` are `index[arg]` and `indexf[arg]` (structure3.py:1377-1405), for a
canonical index `arg`; `mat` is an integer matrix. -/
inductive PIdx (F : Type)
  | str (s : String)
  | int (i : ℤ)
  | slice (start stop step : Option ℤ)
  | list (l : List Key)
  | ellipsis
  | dict
  | nesteddict
  | set (l : List String)
  | fn (f : F)
  | indexf (arg : List Key)
  | index (arg : List Key)
  | mat (m : SMat ℤ)

namespace PIdx

/-- An element of a canonical index as an element of a power index. -/
def ofKey {F : Type} : Key → PIdx F
  | .str s => .str s
  | .int i => .int i

/-- A power index without callables as a power index that may have callables. -/
def lift {F : Type} : PIdx Empty → PIdx F
  | .str s => .str s
  | .int i => .int i
  | .slice a b c => .slice a b c
  | .list l => .list l
  | .ellipsis => .ellipsis
  | .dict => .dict
  | .nesteddict => .nesteddict
  | .set l => .set l
  | .fn f => f.elim
  | .indexf arg => .indexf arg
  | .index arg => .index arg
  | .mat m => .mat m

/-- `slice(None)` -/
def all {F : Type} : PIdx F := .slice none none none

end PIdx

/-- A value on the right-hand side of an assignment: `None`, a Python number, a matrix, a list or tuple, a dict,
`repeated(e)`. -/
inductive Pay (V : Type)
  | none
  | num (v : V)
  | mat (m : SMat V)
  | list (l : List (Pay V))
  | dict (l : List (String × Pay V))
  | rep (e : Pay V)

/-- Computations with exceptions and a mutable state that survives an exception. -/
def M (σ α : Type) : Type := σ → Except PyErr α × σ

namespace M
variable {σ α β : Type}

protected def pure (a : α) : M σ α := fun s => (.ok a, s)

protected def bind (x : M σ α) (f : α → M σ β) : M σ β := fun s =>
  match x s with
  | (.ok a, s') => f a s'
  | (.error e, s') => (.error e, s')

instance : Monad (M σ) where
  pure := M.pure
  bind := M.bind

/-- Raise an exception. -/
def throw (e : PyErr) : M σ α := fun s => (.error e, s)

/-- A computation that does not look at the state. -/
def lift (x : Except PyErr α) : M σ α := fun s => (x, s)

/-- A list comprehension `[f(a) for a in l]`. -/
def forEach : List α → (α → M σ β) → M σ (List β)
  | [], _ => M.pure []
  | a :: l, f => M.bind (f a) fun b => M.bind (forEach l f) fun bs => M.pure (b :: bs)

end M

/-- `slice(a, b, c).indices(n)` and the resulting `range` (Python), step 0 raises ValueError. -/
def sliceList (start stop step : Option ℤ) (n : ℕ) : Except PyErr (List ℤ) :=
  let c := step.getD 1
  if c = 0 then .error .value
  else
    let lo : ℤ := if c < 0 then -1 else 0
    let hi : ℤ := if c < 0 then n - 1 else n
    let norm (v : ℤ) : ℤ := if v < 0 then max (v + n) lo else min v hi
    let a := match start with
      | none => if c < 0 then hi else lo
      | some v => norm v
    let b := match stop with
      | none => if c < 0 then lo else hi
      | some v => norm v
    let len : ℤ := if c < 0 then (if b < a then (a - b - 1) / (-c) + 1 else 0)
      else (if a < b then (b - a - 1) / c + 1 else 0)
    .ok ((List.range len.toNat).map fun k : ℕ => a + c * k)

/-- A Python dict as a list of pairs in insertion order: `d[k] = v`. -/
def dictSet {α β : Type} [DecidableEq α] (d : List (α × β)) (k : α) (v : β) : List (α × β) :=
  if d.any (·.1 = k) then d.map fun p => if p.1 = k then (k, v) else p else d ++ [(k, v)]

/-- `d[k]`, if present. -/
def dictGet {α β : Type} [DecidableEq α] (d : List (α × β)) (k : α) : Option β := d.lookup k

/-- `d.update(e)` -/
def dictUpdate {α β : Type} [DecidableEq α] (d e : List (α × β)) : List (α × β) :=
  e.foldl (fun d p => dictSet d p.1 p.2) d

end CE.St
