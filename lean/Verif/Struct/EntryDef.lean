import Verif.Struct.BuildMap

/-!
# Definition of entries and structs made from expressions (structure3.py:945-963, 1030-1114, 1175-1321)

Arguments that Python accepts because nothing checks them (a `struct` argument that is no structure, an entry without a name)
are modelled where the code has a branch for them.  Simplifications: repeat counts and shapes are natural numbers; an entry
with a nested struct has no `type`.
-/

namespace CE.St

variable {V : Type}

/-- The `shape` argument: an integer, a list or tuple of integers, a pattern, something else. -/
inductive ShapeArg
  | int (n : ℕ)
  | tup (l : List ℕ)
  | sparsity (sp : Sparsity)
  | other

/-- An element of a `shapestruct` tuple: an integer, a structure, something else. -/
inductive SSItem
  | num (n : ℕ)
  | struct (c : CS)
  | other

/-- The `shapestruct` argument: a structure, a tuple, something else. -/
inductive SSArg
  | struct (c : CS)
  | tup (l : List SSItem)
  | other

/-- The `sym` argument: an `SX` and whether it is a valid input, a structured symbolic and its `.cat`, something else. -/
inductive SymArg (V : Type)
  | sx (m : SMat V) (valid : Bool)
  | structured (s : Struct) (cat : SMat V)
  | other

/-- The arguments of `entry(name, ...)`.  `unknown` are keywords that are not among the known ones; `struct` is `some none` for
an argument that is no structure. -/
structure EntryArgs (V : Type) where
  name : String
  unknown : List String := []
  repeat' : Option (List ℕ) := none
  shape : Option ShapeArg := none
  sym : Option (SymArg V) := none
  expr : Option (Pay V) := none
  struct : Option (Option Struct) := none
  shapestruct : Option SSArg := none
  type : Option String := none

/-- A `CasadiStructEntry` with its attributes `sym` and `expr`. -/
structure EntryDef (V : Type) where
  entry : Entry
  sym : Option (SMat V) := none
  expr : Option (Pay V) := none

/-- The forbidden combinations (structure3.py:1196-1206). -/
def EntryArgs.conflict (a : EntryArgs V) : Bool :=
  (a.shape.isSome && a.struct.isSome) ||
  (a.struct.isSome && (a.shape.isSome || a.shapestruct.isSome)) ||
  (a.shapestruct.isSome && a.struct.isSome) ||
  (a.sym.isSome && (a.shape.isSome || a.repeat'.isSome || a.expr.isSome)) ||
  (a.expr.isSome && (a.shape.isSome || a.repeat'.isSome || a.sym.isSome))

/-- The pattern after the `shape` argument (structure3.py:1226-1242). -/
def shapeSp : Option ShapeArg → Except PyErr Sparsity
  | none => .ok (.dense 1 1)
  | some (.int n) => .ok (.dense n 1)
  | some (.tup [n]) => .ok (.dense n)
  | some (.tup [n, m]) => .ok (.dense n m)
  | some (.tup _) => .error .generic
  | some (.sparsity sp) => .ok sp
  | some .other => .error .generic

/-- The attribute `shapestruct` as in `Prim.ss`, and the sizes (structure3.py:1249-1259). -/
def ssItems : SSArg → Except PyErr (List SSItem)
  | .struct c => .ok [.struct c, .num 1]
  | .tup l => if (l.any fun | .other => true | _ => false) ∨ l.length = 0 ∨ l.length > 2 then .error .generic else .ok l
  | .other => .error .generic

/-- `s.f.__getitem__` and `s.i.__getitem__` of an element. -/
def SSItem.fns : SSItem → Option ShapeFns
  | .struct c => some c.shapeFns
  | _ => none

/-- An integer or the size of the structure. -/
def SSItem.size : SSItem → ℕ
  | .num n => n
  | .struct c => c.size
  | .other => 0

/-- `Sparsity.dense(*l)` for one or two integers. -/
def denseOf : List ℕ → Sparsity
  | [n] => .dense n
  | [n, m] => .dense n m
  | _ => .dense 0 0

/-- `shapestruct` and pattern after the `shapestruct` argument (structure3.py:1246-1262). -/
def ssStep (arg : Option SSArg) (hasShape : Bool) (sp : Sparsity) :
    Except PyErr (Option (List (Option ShapeFns)) × Sparsity) :=
  match arg with
  | none => .ok (none, sp)
  | some a => (ssItems a).map fun l => (some (l.map SSItem.fns), if hasShape then sp else denseOf (l.map SSItem.size))

/-- Struct, symbol and pattern after the `sym` argument (structure3.py:1264-1275). -/
def symStep (arg : Option (SymArg V)) (struct : Option Struct) (sp : Sparsity) :
    Except PyErr (Option Struct × Option (SMat V) × Sparsity) :=
  match arg with
  | none => .ok (struct, none, sp)
  | some (.sx m true) => .ok (struct, some m, m.sp)
  | some (.structured s cat) => .ok (some s, some cat, cat.sp)
  | some _ => .error .generic

/-- `getPrimitive(e, repeat)` (structure3.py:1280-1287); `None` is no primitive. -/
def getPrimitive : Pay V → List ℕ → Option (Pay V) × List ℕ
  | .list [], r => (none, r ++ [0])
  | .list (e :: l), r => getPrimitive e (r ++ [(e :: l).length])
  | .none, r => (none, r)
  | e, r => (some e, r)

/-- Repeat counts and pattern after the `expr` argument (structure3.py:1277-1301). -/
def exprStep (arg : Option (Pay V)) (rep : List ℕ) (sp : Sparsity) : Except PyErr (List ℕ × Sparsity) :=
  match arg with
  | none => .ok (rep, sp)
  | some e => match getPrimitive e [] with
    | (none, _) => .ok ([0], .dense 0 0)
    | (some (.mat m), r) => .ok (r, m.sp)
    | (some _, _) => .error .generic

/-- The primitive data after the `type` argument (structure3.py:1303-1314). -/
def typeStep (type : Option String) (sp : Sparsity) (ss : Option (List (Option ShapeFns))) :
    Except PyErr Prim :=
  match type with
  | none => .ok ⟨sp, false, none, ss⟩
  | some t =>
    if t ≠ "symm" then .error .type
    else if sp.rows ≠ sp.cols then .error .type
    else .ok ⟨sp.inter (.upper sp.rows), true, some sp, ss⟩

/-- The entry, with a nested struct or primitive. -/
def mkEntry (name : String) (rep : List ℕ) (struct : Option Struct) (p : Prim) : Entry :=
  match struct with
  | none => .prim name rep p
  | some s => .nested name rep s.entries s.order

/-- `CasadiStructEntry.__init__` (structure3.py:1175-1318) -/
def newEntry (a : EntryArgs V) : Except PyErr (EntryDef V) :=
  if a.unknown ≠ [] then .error .generic
  else if a.conflict then .error .generic
  else do
    let sp ← shapeSp a.shape
    let (ss, sp) ← ssStep a.shapestruct a.shape.isSome sp
    let (struct, sym, sp) ← symStep a.sym (a.struct.getD none) sp
    let (rep, sp) ← exprStep a.expr (a.repeat'.getD []) sp
    let p ← typeStep a.type sp ss
    pure ⟨mkEntry a.name rep struct p, sym, match a.expr with
      | some .none => none
      | e => e⟩

/-! ## Structs made from entries -/

/-- An element of the list of entries. -/
inductive DefItem (V : Type)
  | one (e : EntryDef V)
  | tup (es : List (EntryDef V))

/-- The entries of an element. -/
def DefItem.defs : DefItem V → List (EntryDef V)
  | .one e => [e]
  | .tup es => es

/-- The element for `EntryList`. -/
def DefItem.item : DefItem V → Item
  | .one e => .one e.entry
  | .tup es => .tup (es.map EntryDef.entry)

/-- `for e in self.entries: self[e.name] = e.expr` (structure3.py:1056-1057).  An exception leaves the constructor, so that
the object is lost. -/
def storeExprs [Zero V] : List (EntryDef V) → Obj V → Except PyErr (Obj V)
  | [], o => .ok o
  | e :: es, o => match o.setitem [.str e.entry.name] (e.expr.getD .none) with
    | (.ok _, o') => storeExprs es o'
    | (.error err, _) => .error err

/-- `MatrixStruct.__init__(entries, mtype)` (structure3.py:1038-1057) for a list of entries and no data (`struct_SX`). -/
def newSXExprs [Zero V] (nan : V) (arg : List (DefItem V)) : Except PyErr (Obj V) := do
  let c ← CS.ofList (arg.map DefItem.item)
  if (arg.flatMap DefItem.defs).any fun e => e.expr.isNone then .error .generic
  else storeExprs (arg.flatMap DefItem.defs) (newNan nan c)

/-- `for e in self.entries: self[e.name] = e.expr` (structure3.py:1056-1057), with the object that an exception leaves behind. -/
def storeExprsIn [Zero V] : List (EntryDef V) → Obj V → Except PyErr Unit × Obj V
  | [], o => (.ok (), o)
  | e :: es, o => match o.setitem [.str e.entry.name] (e.expr.getD .none) with
    | (.ok _, o') => storeExprsIn es o'
    | (.error err, o') => (.error err, o')

/-- `MatrixStruct.__init__(entries, mtype, data)` (structure3.py:1038-1057) for a list of entries and a matrix `data` of type `mtype`:
the new struct, and `data` afterwards.  `self.master` is the object `data` itself (line 1045), so that the assignments change it, also
if a later one raises.  Simplification: a sparse column is modelled by its values. -/
def newSXData [Zero V] (arg : List (DefItem V)) (data : SMat V) : Except PyErr (Obj V) × SMat V :=
  match CS.ofList (arg.map DefItem.item) with
  | .error e => (.error e, data)
  | .ok c =>
    if (arg.flatMap DefItem.defs).any fun e => e.expr.isNone then (.error .generic, data)
    else match newMatrixStruct c data with
      | .error e => (.error e, data)
      | .ok o => match storeExprsIn (arg.flatMap DefItem.defs) o with
        | (.ok _, o') => (.ok o', ⟨.dense data.sp.rows data.sp.cols, o'.master⟩)
        | (.error e, o') => (.error e, ⟨.dense data.sp.rows data.sp.cols, o'.master⟩)

/-- `MXStruct.__init__(entries)` (structure3.py:1088-1092) for a list of entries and no data (`struct_MX_mutable`). -/
def newMXExprs [Zero V] (nan : V) (arg : List (DefItem V)) : Except PyErr (Obj V) := do
  let o ← newSXExprs nan arg
  let prio ← buildMap o.cs.struct (.col o.master)
  pure { o with prio := prio }

/-- `self.master[self.i[e.name]] = e.sym` for the entries with `sym` (structure3.py:958-960). -/
def storeSyms [Zero V] : List (EntryDef V) → Obj V → Except PyErr (Obj V)
  | [], o => .ok o
  | e :: es, o => match e.sym with
    | none => storeSyms es o
    | some m => match o.cs.i (V := V) [.str e.entry.name] with
      | .ok (.leaf i) => match assign o.master i m with
        | .ok master => storeSyms es { o with master := master }
        | .error err => .error err
      | .ok _ => .error .type
      | .error err => .error err

/-- `ssymStruct.__init__(entries, order)` (structure3.py:947-960) for a list of entries; `fresh` are the new symbols. -/
def newSymSX [Zero V] (fresh : ℕ → V) (arg : List (DefItem V)) (order : Option (List OrderItem)) : Except PyErr (Obj V) := do
  let c ← CS.ofList (arg.map DefItem.item) order
  if (arg.flatMap DefItem.defs).any fun e => e.expr.isSome then .error .generic
  else storeSyms (arg.flatMap DefItem.defs) ⟨c, (List.range c.size).map fresh, []⟩

/-- `msymStruct.__init__(entries, order)` (structure3.py:1000-1010) for a list of entries. -/
def newSymMXExprs [Zero V] (fresh : ℕ → V) (arg : List (DefItem V)) (order : Option (List OrderItem)) :
    Except PyErr (Obj V) := do
  let c ← CS.ofList (arg.map DefItem.item) order
  if (arg.flatMap DefItem.defs).any fun e => e.expr.isSome then .error .generic
  else if (arg.flatMap DefItem.defs).any fun e => e.sym.isSome then .error .generic
  else newSymMX c ((List.range c.size).map fresh)

/-! ## `MXVeccatStruct` -/

/-- The attributes of an `MXVeccatStruct` (structure3.py:1100-1161): struct, `storage` and `mapping`. -/
structure VObj (V : Type) where
  cs : CS
  storage : List (Option (SMat V))
  mapping : List (CIdx × ℕ)

/-- The loop that fills `mapping` (structure3.py:1109-1111). -/
def mappingOf (tops : List CIdx) : List (CIdx × ℕ) :=
  tops.zipIdx.foldl (fun d p => dictSet d p.1 p.2) []

/-- An `MXVeccatStruct` before the expressions are stored (structure3.py:1107-1111). -/
def VObj.empty (c : CS) : VObj V :=
  ⟨c, (c.struct.traverseCanonicalIndex 1).map fun _ => none, mappingOf (c.struct.traverseCanonicalIndex 1)⟩

/-- `inject` (structure3.py:1122-1134).  The check for an attribute `sparsity` looks at the struct, not at the payload; a
payload without it raises AttributeError. -/
def inject (map : List (CIdx × IMat)) (mapping : List (CIdx × ℕ)) (pay : Pay V) (c : CIdx) {F : Type}
    (extra : Option (List (PIdx F))) : M (List (Option (SMat V))) Unit := fun st =>
  if extra.isSome then (.error .generic, st)
  else match dictGet mapping c with
    | none => (.error .generic, st)
    | some k => match dictGet map c with
      | none => (.error .key, st)
      | some i => match pay with
        | .mat m => if i.sp ≠ m.sp then (.error .generic, st) else (.ok (), st.set k (some m))
        | _ => (.error .attribute, st)

/-- `inject` as a dispatcher: a function has no `callableInner`, so a callable in the power index raises. -/
def injectDisp {F : Type} (map : List (CIdx × IMat)) (mapping : List (CIdx × ℕ)) : Disp (List (Option (SMat V))) V F Unit where
  call inner pay c x _ := if inner then M.throw .attribute else inject map mapping pay c x
  outer _ _ _ _ _ := M.throw .attribute

/-- `__setitem__` (structure3.py:1118-1135) -/
def VObj.setitem (o : VObj V) (pi : List (PIdx (PyFn V))) (value : Pay V) : Except PyErr Unit × VObj V :=
  match o.cs.struct.traverse (injectDisp o.cs.map o.mapping) pi value o.storage with
  | (.ok _, st) => (.ok (), { o with storage := st })
  | (.error e, st) => (.error e, { o with storage := st })

/-- `master` (structure3.py:1152-1161): the nonzeros of all expressions; `dirty` stays true, so that it is always computed
anew. -/
def VObj.master (o : VObj V) : Except PyErr (List V) :=
  if o.storage.any Option.isNone then .error .generic
  else .ok (o.storage.flatMap fun m => match m with
    | some m => m.data
    | none => [])

/-- `__getitem__` (structure3.py:651-654): `master` is computed first; the priority map is empty. -/
def VObj.getitem [Zero V] [Add V] [Sub V] (o : VObj V) (pi : List (PIdx (PyFn V))) : Except PyErr (Tree (SMat V)) :=
  o.master.bind fun master => (⟨o.cs, master, []⟩ : Obj V).getitem pi

/-- `for e in self.entries: self[e.name] = e.expr` (structure3.py:1113-1114) -/
def VObj.storeExprs : List (EntryDef V) → VObj V → Except PyErr (VObj V)
  | [], o => .ok o
  | e :: es, o => match o.setitem [.str e.entry.name] (e.expr.getD .none) with
    | (.ok _, o') => VObj.storeExprs es o'
    | (.error err, _) => .error err

/-- `MXVeccatStruct.__init__(entries, order)` (structure3.py:1102-1116) for a list of entries. -/
def newVeccat (arg : List (DefItem V)) (order : Option (List OrderItem)) : Except PyErr (VObj V) := do
  let c ← CS.ofList (arg.map DefItem.item) order
  if (arg.flatMap DefItem.defs).any fun e => e.expr.isNone then .error .generic
  else VObj.storeExprs (arg.flatMap DefItem.defs) (.empty c)

end CE.St
