import Verif.Struct.PickleAll
import Mathlib.Logic.Function.Basic

/-!
# Saving to files (structure3.py:770-772, 1061-1063, 1488-1490)

`save` and `struct_load` open the file with `file(...)`, a builtin function of Python 2.  The model keeps how Python finds the object of a
name that is not a local variable, and the contents of the files as far as `pickle` is concerned.  Simplification: a file is complete as
soon as `save` returns (the file object is not closed explicitly).
-/

namespace CE.St

variable {V : Type}

/-- The names that are bound at the top level of structure3.py with Python 3, apart from those of `from casadi import *` (line 23): imports
(lines 26-35), functions and classes, assignments (lines 1164-1173, 1330, 1404-1405). -/
def moduleNames : List String := ["np", "operator", "sys", "builtins", "collections", "is_integer", "is_string", "isIterable", "lpack",
  "combine", "listindices", "intersperseIt", "intersperse", "canonicalIndexAncestors", "canonical", "vec", "correct_vector_indexing",
  "properGetitem", "SafeDict", "Repeater", "repeated", "NestedDictLiteral", "nesteddict", "payloadUnpack", "StructEntry", "Structure",
  "Dispatcher", "CasadiStructureDerivable", "GetterDispatcher", "SetterDispatcher", "MasterGettable", "MasterSettable", "delegation",
  "performExtraIndex", "Prefixer", "PrefixConstructor", "CasadiStructure", "Structured", "CasadiStructured", "CompatibilityException",
  "ssymStruct", "VertsplitStructure", "msymStruct", "MatrixStruct", "DMStruct", "SXStruct", "MXStruct", "MXVeccatStruct", "struct_symSX",
  "struct_symMX", "struct_SX", "struct_MX_mutable", "struct_MX", "struct", "entry", "CasadiStructEntry", "EntryList", "Delegater",
  "IndexDelegater", "FlatIndexDelegater", "DelegaterConstructor", "index", "indexf", "DataReference", "DataReferenceRepeated",
  "DataReferenceSquared", "DataReferenceProduct", "DataReferenceSquaredRepeated", "struct_load"]

/-- The object of a name that is not a local variable (Python): a name of the module, where those of the module itself replace those
imported from CasADi, otherwise a builtin; NameError if there is none. -/
def resolve {F : Type} (own : String → F) (casadi builtin : String → Option F) (n : String) : Except PyErr F :=
  if n ∈ moduleNames then .ok (own n)
  else match casadi n with
    | some f => .ok f
    | none => match builtin n with
      | some f => .ok f
      | none => .error .name

/-- What `pickle` has written to a file: the state dictionaries and the object. -/
structure Saved (V : Type) where
  memo : MemoOf (PKeys V)
  obj : PObj V

/-- The files: missing, empty, or with a pickle. -/
abbrev Files (V : Type) := String → Option (Option (Saved V))

/-- The files, and the keys left in the state dictionaries of the structs by earlier pickling. -/
structure World (V : Type) where
  files : Files V
  init : List (ℕ × PKeys V)

/-- What a name can refer to, as far as it is used here: a function that is called with the name of a file and a mode. -/
abbrev Opener (V : Type) := String → String → Files V → Except PyErr (Files V)

/-- The classes that have a method `save`: `CasadiStructure` and `DMStruct` (structure3.py:770, 1061); the others do not derive from
them (structure3.py:871-1100). -/
def PKind.hasSave : PKind V → Bool
  | .layout | .dm _ => true
  | _ => false

/-- `save` (structure3.py:770-772, 1061-1063): the outcome, and the files and dictionaries afterwards. -/
def PObj.save (names : String → Except PyErr (Opener V)) (o : PObj V) (filename : String) (w : World V) : Except PyErr Unit × World V :=
  if o.kind.hasSave then
    match names "file" with
    | .error e => (.error e, w)
    | .ok f => match f filename "wb" w.files with
      | .error e => (.error e, w)
      | .ok files => (.ok (), ⟨Function.update files filename (some (some ⟨dumpObjs [o] w.init [], o⟩)),
          dictSet w.init o.st.id (o.kind.store ((dictGet w.init o.st.id).getD {}))⟩)
  else (.error .attribute, w)

/-- `struct_load` (structure3.py:1488-1490); `fresh` are the symbols the object makes.  OSError and EOFError of a file that is missing or
empty are `generic`. -/
def structLoad [Zero V] (names : String → Except PyErr (Opener V)) (fresh : ℕ → V) (filename : String) (w : World V) :
    Except PyErr (Loaded V) × World V :=
  match names "file" with
  | .error e => (.error e, w)
  | .ok f => match f filename "rb" w.files with
    | .error e => (.error e, w)
    | .ok files => (match files filename with
      | some (some s) => loadObj fresh s.memo s.obj
      | _ => .error .generic, { w with files := files })

/-- Several calls of `save`, whether they raise or not: the files and dictionaries afterwards. -/
def saveAll (names : String → Except PyErr (Opener V)) : List (PObj V × String) → World V → World V
  | [], w => w
  | x :: l, w => saveAll names l (x.1.save names x.2 w).2

end CE.St
