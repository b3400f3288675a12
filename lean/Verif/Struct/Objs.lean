import Verif.Struct.Trav

/-!
# Structs with data (structure3.py:443-582, 696-762, 985-1161)

Construction of `DMStruct`, `MXStruct`, `SXStruct` from data, dicts and matrices.  `master` is a dense column; data given as
a sparse column are modelled by their values.
-/

namespace CE.St

variable {V : Type} [Zero V]

/-- The values of a column. -/
def SMat.toColumn (m : SMat V) : List V := (List.range m.sp.rows).map fun i => m.at' (i, 0)

/-- `MatrixStruct.__init__(struct, mtype, data)` (structure3.py:1038-1057) for `data` of the right type and an existing
struct (so that `self.entries` is empty). -/
def newMatrixStruct (c : CS) (data : SMat V) : Except PyErr (Obj V) :=
  if data.sp.rows ≠ c.size then .error .generic
  else if data.sp.cols ≠ 1 ∧ data.sp.rows > 0 then .error .generic
  else .ok ⟨c, data.toColumn, []⟩

/-- `MatrixStruct.__init__(struct, mtype)` without data: filled with `nan`. -/
def newNan (nan : V) (c : CS) : Obj V := ⟨c, List.replicate c.size nan, []⟩

/-- The loop `for k in self.keys(): ret[k] = arg[k]` (structure3.py:489-490). -/
def assignKeys (items : List (String × Pay V)) : List String → Obj V → Except PyErr (Obj V)
  | [], o => .ok o
  | k :: ks, o => match dictGet items k with
    | none => .error .key
    | some v => match o.setitem [.str k] v with
      | (.ok _, o') => assignKeys items ks o'
      | (.error e, _) => .error e

/-- `CasadiStructureDerivable.__call__(arg)` (structure3.py:481-507) for a dict, and for arguments that `argtype` converts to
`DM`: a `DM`, a number, a list of numbers or of rows; everything else raises Exception (line 479).  `nan` is the initial value of the elements. -/
def callDM (nan : V) (c : CS) : Pay V → Except PyErr (Obj V)
  | .dict items =>
    if ((items.map Prod.fst).all (· ∈ c.struct.keys)) && c.struct.keys.all (· ∈ items.map Prod.fst) then
      assignKeys items c.struct.keys (newNan nan c)
    else .error .generic
  | arg => match arg.toMat with
    | .error _ => .error .generic
    | .ok a =>
      if a.sp.rows = 1 ∧ a.sp.cols = 1 ∧ c.size ≠ 1 then
        newMatrixStruct c ⟨.dense c.size 1, List.replicate c.size (a.at' (0, 0))⟩
      else newMatrixStruct c a

/-- `CasadiStructureDerivable.__call__(arg)` (structure3.py:481-507) for an `SX` or (apart from the priority map, see
`callMX`) an `MX` expression: no expansion of scalars. -/
def callSX (c : CS) (a : SMat V) : Except PyErr (Obj V) := newMatrixStruct c a

/-- Column `j` of a matrix. -/
def SMat.column (m : SMat V) (j : ℕ) : SMat V := ⟨.dense m.sp.rows 1, (List.range m.sp.rows).map fun i => m.at' (i, j)⟩

/-- The structural nonzero at `(i, j)` of matrices side by side. -/
def nzBeside (i : ℕ) : List (SMat V) → ℕ → Option V
  | [], _ => none
  | m :: ms, j => if j < m.sp.cols then m.nzAt (i, j) else nzBeside i ms (j - m.sp.cols)

/-- `horzcat` of a non-empty list of matrices; RuntimeError for different numbers of rows. -/
def horzcat : List (SMat V) → Except PyErr (SMat V)
  | [] => .error .runtime
  | m :: ms =>
    if ms.all fun x => x.sp.rows = m.sp.rows then
      let n := ((m :: ms).map fun x => x.sp.cols).sum
      let pos := (Sparsity.positions m.sp.rows n).filterMap fun p => (nzBeside p.1 (m :: ms) p.2).map fun v => (p, v)
      .ok ⟨⟨m.sp.rows, n, pos.map (·.1)⟩, pos.map (·.2)⟩
    else .error .runtime

/-- A matrix, not a list. -/
def Tree.toLeaf {R : Type} : Tree R → Except PyErr R
  | .leaf r => .ok r
  | _ => .error .type

/-- `parseMatrix(data)` (structure3.py:510-522) for a two-dimensional array `data` with at least one column.
Simplification: no columns raise (CasADi's `horzcat()` is not modelled). -/
def parseMatrix [Add V] [Sub V] (nan : V) (c : CS) (data : SMat V) : Except PyErr (List (String × SMat V)) :=
  c.struct.keys.mapM fun k => do
    let ms ← (List.range data.sp.cols).mapM fun j => do
      let o ← callDM nan c (.mat (data.column j))
      let t ← o.getitem [.str k]
      t.toLeaf
    let m ← horzcat ms
    pure (k, m)

end CE.St
