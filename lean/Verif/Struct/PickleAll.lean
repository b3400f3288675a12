import Verif.Struct.Pickle
import Verif.Struct.EntryDef

/-!
# Pickling of objects of all classes (structure3.py:792-800, 904-912, 1065-1073)

The objects of a pickle share the state dictionaries of their structs (`initializer`, structure3.py:799), in which `DMStruct` stores
the key `master` and the other objects the key `order`; `pickle` writes each dictionary once.  Simplification: the attribute `order`
of the objects, which only serves to be pickled, is not kept.
-/

namespace CE.St

variable {V : Type}

/-- The keys of a state dictionary other than `args` and `kwargs`. -/
structure PKeys (V : Type) where
  master : Option (List V) := none
  order : Option (Option (List OrderItem)) := none

/-- The class of an object, with the attribute that its `__getstate__` stores: `order` is the argument of the constructor, `None` for
`SXStruct` and `MXStruct` (structure3.py:1039). -/
inductive PKind (V : Type)
  /-- `CasadiStructure`, the class of `s.struct` -/
  | layout
  /-- `struct` (`CasadiStructured`) -/
  | plain (order : Option (List OrderItem))
  /-- `struct_symSX` -/
  | symSX (order : Option (List OrderItem))
  /-- `struct_symMX` -/
  | symMX (order : Option (List OrderItem))
  /-- `struct_SX` and `struct_MX_mutable`, whatever the data -/
  | mutable
  /-- `struct_MX`, whatever the expressions -/
  | veccat (order : Option (List OrderItem))
  /-- `DMStruct` -/
  | dm (master : List V)

/-- An object to be pickled: its struct and its class. -/
structure PObj (V : Type) where
  st : PStruct
  kind : PKind V

/-- `__getstate__` (structure3.py:795-796, 909-912, 1070-1073): the dictionary afterwards. -/
def PKind.store (k : PKind V) (d : PKeys V) : PKeys V :=
  match k with
  | .layout => d
  | .plain o | .symSX o | .symMX o | .veccat o => { d with order := some o }
  | .mutable => { d with order := some none }
  | .dm m => { d with master := some m }

/-- `pickle.dumps` of a list of objects: the dictionary of the struct is changed by `__getstate__` and then written, unless it has been
written before. -/
def dumpObjs : List (PObj V) → List (ℕ × PKeys V) → MemoOf (PKeys V) → MemoOf (PKeys V)
  | [], _, memo => memo
  | o :: os, init, memo =>
    let init := dictSet init o.st.id (o.kind.store ((dictGet init o.st.id).getD {}))
    dumpObjs os init (o.st.dump init memo)

/-- What an object is after unpickling. -/
inductive Loaded (V : Type)
  /-- an object of the classes `CasadiStructure` and `CasadiStructured` -/
  | layout (c : CS)
  /-- an object with a `master` -/
  | obj (o : Obj V)
  /-- an `MXVeccatStruct` -/
  | veccat (o : VObj V)

/-- `__setstate__` (structure3.py:792-793, 904-907, 1065-1068).  The constructors are called with the new `CasadiStructure`, which has no
expressions and no given symbols: `ssymStruct` and `msymStruct` make new symbols (`fresh`), `MXVeccatStruct` has no expressions, and
`SXStruct` and `MXStruct` do not accept the argument `order`. -/
def loadObj [Zero V] (fresh : ℕ → V) (memo : MemoOf (PKeys V)) (o : PObj V) : Except PyErr (Loaded V) := do
  let d ← match dictGet memo o.st.id with
    | some d => .ok (d.getD {})
    | none => .error .generic
  let c ← CS.new (stripAll o.st.struct.entries) (some o.st.struct.order)
  let needOrder : Except PyErr (Option (List OrderItem)) := match d.order with
    | some x => .ok x
    | none => .error .key
  match o.kind with
  | .layout => pure (.layout c)
  | .plain _ => do
    let _ ← needOrder
    pure (.layout c)
  | .symSX _ => do
    let _ ← needOrder
    pure (.obj ⟨c, (List.range c.size).map fresh, []⟩)
  | .symMX _ => do
    let _ ← needOrder
    let r ← newSymMX c ((List.range c.size).map fresh)
    pure (.obj r)
  | .mutable => do
    let _ ← needOrder
    .error .type
  | .veccat _ => do
    let _ ← needOrder
    pure (.veccat (.empty c))
  | .dm _ => match d.master with
    | some m => do
      let r ← newMatrixStruct c (.col m)
      pure (.obj r)
    | none => .error .key

/-- `pickle.loads(pickle.dumps(l))` for a list of objects; `init` are the keys left in the dictionaries by earlier pickling, `fresh n`
the symbols that the object number `n` makes. -/
def pickleObjs [Zero V] (fresh : ℕ → ℕ → V) (os : List (PObj V)) (init : List (ℕ × PKeys V)) : Except PyErr (List (Loaded V)) :=
  os.zipIdx.mapM fun p => loadObj (fresh p.2) (dumpObjs os init []) p.1

end CE.St
