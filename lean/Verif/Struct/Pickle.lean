import Verif.Struct.Objs

/-!
# Pickling of `DMStruct` objects (structure3.py:792-800, 1065-1073, 1326-1327)

`pickle` writes every object once and later refers to it by its identity; the model keeps, for the state dictionaries of the
structs (`initializer`, line 799), the identity of the struct and the value of the key `master` at the time it is written.
The other keys of the state do not change.  Simplification: the structures of a `shapestruct` are kept as they are (only their
identities and state dictionaries matter here).
-/

namespace CE.St

variable {V : Type}

mutual
/-- A `CasadiStructure` object: its identity, entries and order (the arguments kept in `initializer`). -/
inductive PStruct
  | mk (id : ℕ) (entries : List PEntry) (order : List OrderItem)
/-- An entry: primitive, with the structures of its `shapestruct`, or with a nested structure. -/
inductive PEntry
  | prim (name : String) (dims : List ℕ) (p : Prim) (ss : List PStruct)
  | nested (name : String) (dims : List ℕ) (s : PStruct)
end

/-- The identity. -/
def PStruct.id : PStruct → ℕ
  | .mk i _ _ => i

/-- What an unpickled primitive entry has: `CasadiStructEntry.__getstate__` (structure3.py:1326-1327) omits
`originalsparsity`. -/
def Prim.strip (p : Prim) : Prim := { p with orig := none }

mutual
/-- The entry without identities. -/
def PEntry.entry : PEntry → Entry
  | .prim n d p _ => .prim n d p
  | .nested n d (.mk _ es o) => .nested n d (entries es) o
/-- The entries without identities. -/
def entries : List PEntry → List Entry
  | [] => []
  | e :: es => e.entry :: entries es
end

/-- The struct without identities. -/
def PStruct.struct : PStruct → Struct
  | .mk _ es o => ⟨entries es, o⟩

mutual
/-- An unpickled entry. -/
def Entry.strip : Entry → Entry
  | .prim n d p => .prim n d p.strip
  | .nested n d es o => .nested n d (stripAll es) o
/-- Unpickled entries. -/
def stripAll : List Entry → List Entry
  | [] => []
  | e :: es => e.strip :: stripAll es
end

/-- The state dictionaries written so far: identity of the struct and what the keys other than `args` and `kwargs` are, if there
are any. -/
abbrev MemoOf (α : Type) := List (ℕ × Option α)

/-- The same for `DMStruct` objects only: the value of the key `master`. -/
abbrev Memo (V : Type) := MemoOf (List V)

variable {α : Type}

mutual
/-- Writing the state dictionary of a struct and, in it, its entries (`CasadiStructure.__getstate__`, structure3.py:795-796);
`init` are the current other keys of the dictionaries. -/
def PStruct.dump (init : List (ℕ × α)) : PStruct → MemoOf α → MemoOf α
  | .mk i es _, memo => if (memo.map Prod.fst).contains i then memo else dumpEntries init es (memo ++ [(i, dictGet init i)])
/-- Writing an entry. -/
def PEntry.dump (init : List (ℕ × α)) : PEntry → MemoOf α → MemoOf α
  | .prim _ _ _ ss, memo => dumpStructs init ss memo
  | .nested _ _ s, memo => s.dump init memo
/-- Writing a list of entries. -/
def dumpEntries (init : List (ℕ × α)) : List PEntry → MemoOf α → MemoOf α
  | [], memo => memo
  | e :: es, memo => dumpEntries init es (e.dump init memo)
/-- Writing the structures of a `shapestruct`. -/
def dumpStructs (init : List (ℕ × α)) : List PStruct → MemoOf α → MemoOf α
  | [], memo => memo
  | s :: ss, memo => dumpStructs init ss (s.dump init memo)
end

/-- A `DMStruct` object: its `struct` and `master`. -/
structure DMObj (V : Type) where
  st : PStruct
  master : List V

/-- `pickle.dumps` of a list of `DMStruct` objects: `__getstate__` (structure3.py:1070-1073) stores `master` in the state
dictionary of the struct, which then is written. -/
def dumpAll : List (DMObj V) → List (ℕ × List V) → Memo V → Memo V
  | [], _, memo => memo
  | o :: os, init, memo =>
    dumpAll os (dictSet init o.st.id o.master) (o.st.dump (dictSet init o.st.id o.master) memo)

/-- `__setstate__` (structure3.py:792-793, 1065-1068) with the dictionary read back. -/
def loadOne [Zero V] (memo : Memo V) (st : PStruct) : Except PyErr (Obj V) :=
  match dictGet memo st.id with
  | some (some m) => do
    let c ← CS.new (stripAll st.struct.entries) (some st.struct.order)
    newMatrixStruct c (.col m)
  | _ => .error .key

/-- `pickle.loads(pickle.dumps(l))` for a list of `DMStruct` objects; `init` are the `master` keys left in the dictionaries
by earlier pickling. -/
def pickleList [Zero V] (os : List (DMObj V)) (init : List (ℕ × List V)) : Except PyErr (List (Obj V)) :=
  os.mapM fun o => loadOne (dumpAll os init []) o.st

end CE.St
