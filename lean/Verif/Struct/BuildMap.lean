import Verif.Struct.Prefix

/-!
# The priority map of MX structs (structure3.py:965-1027, 1088-1098)

`VertsplitStructure.buildMap` cuts `master` into the parts of the struct with `vertsplit` and stores them in
`priority_object_map`, from which the getter reads.  Assumptions on CasADi: `vertsplit` needs offsets that start with 0, do
not decrease and end with the number of rows; `MX(sp, k)` accepts a reshaped pattern, a scalar (copied to all nonzeros) or a
column with one element per nonzero.
-/

namespace CE.St

variable {V : Type}

/-- The rows `a`, ..., `a + n - 1` of a matrix. -/
def SMat.rowBlock (m : SMat V) (a n : ℕ) : SMat V :=
  let pos := (Sparsity.positions n m.sp.cols).filterMap fun p => (m.nzAt (a + p.1, p.2)).map fun v => (p, v)
  ⟨⟨n, m.sp.cols, pos.map (·.1)⟩, pos.map (·.2)⟩

/-- `vertsplit(m, ks)` -/
def vertsplit (m : SMat V) (ks : List ℕ) : Except PyErr (List (SMat V)) :=
  if ks.head? ≠ some 0 ∨ ks.getLast? ≠ some m.sp.rows ∨ ¬ ks.Pairwise (· ≤ ·) then .error .runtime
  else .ok (List.zipWith (fun a b => m.rowBlock a (b - a)) ks ks.tail)

/-- The numbers of the nonzeros in column-major order. -/
def Sparsity.linear (s : Sparsity) : List ℕ := s.nz.map fun p => p.1 + p.2 * s.rows

/-- `MX(sp, k)` -/
def mxOf [Zero V] (sp : Sparsity) (k : SMat V) : Except PyErr (SMat V) :=
  if sp.rows * sp.cols = k.sp.rows * k.sp.cols ∧ sp.linear = k.sp.linear then .ok ⟨sp, k.data⟩
  else if k.isScalar then .ok (SMat.fill sp fun _ => k.at' (0, 0))
  else if k.sp.cols = 1 ∧ k.sp.rows = sp.nnz then .ok ⟨sp, (List.range k.sp.rows).map fun i => k.at' (i, 0)⟩
  else .error .runtime

/-- `priority_object_map` -/
abbrev Prio (V : Type) := List (CIdx × SMat V)

/-- A call of `buildMap` for one struct: `parentIndex`, `parent`, and the map before and after it. -/
abbrev Builder (V : Type) := CIdx → SMat V → Prio V → Except PyErr (Prio V)

/-- The pattern of one repetition of an entry (structure3.py:980-984).  The nested struct has been built before. -/
def Entry.topSp : Entry → Except PyErr Sparsity
  | .prim _ _ p => .ok p.sp
  | .nested _ _ es o => (CS.ofStruct ⟨es, o⟩).map fun c => .dense c.size 1

/-- The list `ks` without the last element (structure3.py:977, 985, 990). -/
def offsets : ℕ → List ℕ → List ℕ
  | _, [] => []
  | k, n :: ns => k :: offsets (k + n) ns

/-- The entry of a repetition in a table by names. -/
def tableAt {β : Type} (table : List (String × β)) (i : CIdx) : Except PyErr β :=
  match strings i with
  | [n] => match table.reverse.find? (·.1 = n) with
    | some t => .ok t.2
    | none => .error .generic
  | _ => .error .generic

/-- What `buildMap` knows about a repetition of an entry: index, pattern, the recursive call. -/
abbrev TopItem (V : Type) := CIdx × Sparsity × Builder V

/-- `k if k.sparsity()==sp else MX(sp,k)` (structure3.py:996) -/
def asPart [Zero V] (sp : Sparsity) (k : SMat V) : Except PyErr (SMat V) := if k.sp = sp then .ok k else mxOf sp k

/-- One turn of the second loop (structure3.py:993-996). -/
def buildStep [Zero V] (pre : CIdx) (m : Prio V) (e : TopItem V × SMat V) : Except PyErr (Prio V) := do
  let m ← e.1.2.2 (pre ++ e.1.1) e.2 m
  let v ← asPart e.1.2.1 e.2
  pure (dictSet m (pre ++ e.1.1) v)

/-- `buildMap` (structure3.py:966-996), given the repetitions of the entries and a table with the patterns and recursive
calls of the entries. -/
def buildGo [Zero V] (tops : List CIdx) (table : List (String × Except PyErr Sparsity × Builder V)) : Builder V :=
  fun pre parent m => do
    let es ← tops.mapM fun i => do
      let t ← tableAt table i
      let sp ← t.1
      pure ((i, sp, t.2) : TopItem V)
    let parts ← vertsplit parent (offsets 0 (es.map fun e => e.2.1.nnz) ++ [parent.sp.rows])
    (es.zip parts).foldlM (buildStep pre) m

mutual
/-- The recursive call for an entry (structure3.py:994-995). -/
def Entry.builder [Zero V] : Entry → Builder V
  | .prim .. => fun _ _ m => .ok m
  | .nested _ _ es o => buildGo (Struct.traverseCanonicalIndex ⟨es, o⟩ 1) (buildTable es)
/-- Patterns and recursive calls of all entries. -/
def buildTable [Zero V] : List Entry → List (String × Except PyErr Sparsity × Builder V)
  | [] => []
  | e :: es => (e.name, e.topSp, e.builder) :: buildTable es
end

/-- `self.buildMap()` (structure3.py:966-996): `priority_object_map` for `master = parent`. -/
def buildMap [Zero V] (s : Struct) (parent : SMat V) : Except PyErr (Prio V) :=
  buildGo (s.traverseCanonicalIndex 1) (buildTable s.entries) [] parent []

/-- `msymStruct.__init__` (structure3.py:1000-1010) for an existing struct; `master` are the elements of `MX.sym`. -/
def newSymMX [Zero V] (c : CS) (master : List V) : Except PyErr (Obj V) := do
  let prio ← buildMap c.struct (.col master)
  pure ⟨c, master, prio⟩

/-- `MXStruct.__init__(struct, data)` (structure3.py:1089-1092) for an existing struct. -/
def newMXStruct [Zero V] (c : CS) (data : SMat V) : Except PyErr (Obj V) := do
  let o ← newMatrixStruct c data
  let prio ← buildMap c.struct (.col o.master)
  pure { o with prio := prio }

/-- `s.repeated(a)` (structure3.py:525-539) for an `MX` `a`: the object of the view is an `MXStruct`, whose constructor calls
`buildMap` with the matrix `a` itself as parent (lines 970-971). -/
def CS.repeatedMX [Zero V] (c : CS) (a : SMat V) : Except PyErr (Prefixer V) := do
  let p ← c.repeated a
  let prio ← buildMap p.obj.cs.struct a
  pure { p with obj := { p.obj with prio := prio } }

end CE.St
