import Verif.Struct.Prefix
import Verif.Struct.Text

/-! # Texts of prefixes and of `index[...]` (`__str__`, structure3.py:733-736, 751-754, 1371-1374) -/

namespace CE.St

/-- `repr` of a tuple, given the texts of its elements. -/
def tupleOf : List String → String
  | [a] => "(" ++ a ++ ",)"
  | l => "(" ++ joinWith ", " l ++ ")"

/-- `repr` of a name or number. -/
def Key.repr : Key → String
  | .str s => quoted s
  | .int i => Int.repr i

/-- `repr` of the bounds and the step of a slice. -/
def optText : Option ℤ → String
  | none => "None"
  | some i => Int.repr i

/-- `Delegater.__str__` (structure3.py:1371-1372): the name of the class and the index, which is a tuple (structure3.py:1401-1402). -/
def delegaterText (cls : String) (arg : List Key) : String := cls ++ "[" ++ tupleOf (arg.map Key.repr) ++ "]"

/-- `repr` of an element of a power index.  `other` gives the texts of functions, of `nesteddict` (which contain addresses) and of
matrices. -/
def PIdx.repr {F : Type} (other : PIdx F → String) : PIdx F → String
  | .str s => quoted s
  | .int i => Int.repr i
  | .slice a b c => "slice(" ++ optText a ++ ", " ++ optText b ++ ", " ++ optText c ++ ")"
  | .list l => listText (l.map Key.repr)
  | .ellipsis => "Ellipsis"
  | .dict => "{}"
  | .set [] => "set()"
  | .set (a :: l) => "{" ++ joinWith ", " ((a :: l).map quoted) ++ "}"
  | .indexf arg => delegaterText "FlatIndexDelegater" arg
  | .index arg => delegaterText "IndexDelegater" arg
  | p => other p

/-- `PrefixConstructor.__str__` (structure3.py:751-752) for an object with the given `description`. -/
def prefixConstructorText (description : String) (c : CS) : String := "prefixConstructor(" ++ objText description c true ++ ")"

/-- `Prefixer.__str__` (structure3.py:733-734) for an object with the given `description`. -/
def Prefixer.text {V : Type} (other : PIdx (PyFn V) → String) (description : String) (p : Prefixer V) : String :=
  "prefix( " ++ tupleOf (p.pre.map (PIdx.repr other)) ++ "," ++ objText description p.obj.cs true ++ ")"

end CE.St
