import Verif.Struct.Labels

/-! # Texts of structs (`__str__`, structure3.py:168-183, 296-307, 843-844, 892-896, 1320-1324)

The text of an entry does not contain its name, so the texts of the entries are computed first and the dict is formed from them. -/

namespace CE.St

/-- `sep.join(l)` -/
def joinWith (sep : String) : List String → String
  | [] => ""
  | [a] => a
  | a :: l => a ++ sep ++ joinWith sep l

/-- `str(l)` for a list, given the texts of the elements. -/
def listText (l : List String) : String := "[" ++ joinWith ", " l ++ "]"

/-- `repr(s)` for a string.  Simplified: quotes, backslashes and characters that cannot be printed are not escaped. -/
def quoted (s : String) : String := "'" ++ s ++ "'"

/-- `repr(t)` for a tuple of strings. -/
def tupleText : List String → String
  | [a] => "(" ++ quoted a ++ ",)"
  | l => "(" ++ joinWith ", " (l.map quoted) ++ ")"

/-- `repr` of an element of `order`. -/
def OrderItem.text : OrderItem → String
  | .one n => quoted n
  | .tup ns => tupleText ns

/-- `Sparsity.dim()` of CasADi: the numbers of rows and columns. -/
def Sparsity.dimText (s : Sparsity) : String := Nat.repr s.rows ++ "x" ++ Nat.repr s.cols

/-- `CasadiStructEntry.primitiveString` (structure3.py:1320-1324) -/
def Prim.text (p : Prim) : String := if p.symm then "symm(" ++ p.sp.dimText ++ ")" else p.sp.dimText

/-- The text of the repeat counts in `StructEntry.__str__` (structure3.py:170-171). -/
def repeatText (dims : List ℕ) : String :=
  if dims.length ≥ 1 then "repeated(" ++ listText (dims.map Nat.repr) ++ "): " else ""

/-- `SafeDict([(k, v), ..])` (structure3.py:282): the value of the last of equal keys at the position of the first. -/
def dictOfList (t : List (String × String)) : List (String × String) := t.foldl (fun d p => dictSet d p.1 p.2) []

/-- `Structure.__str__(compact=True)` (structure3.py:298-299), given names and texts of the entries. -/
def compactText (t : List (String × String)) : String :=
  "{" ++ joinComma ((dictOfList t).map fun p => p.1 ++ ": " ++ p.2) ++ "}"

mutual
/-- `StructEntry.__str__` (structure3.py:168-176) -/
def Entry.text : Entry → String
  | .prim _ dims p => repeatText dims ++ p.text
  | .nested _ dims es _ => repeatText dims ++ compactText (textTable es)
/-- Names and texts of all entries. -/
def textTable : List Entry → List (String × String)
  | [] => []
  | e :: es => (e.name, e.text) :: textTable es
end

/-- `Structure.__str__(compact)` (structure3.py:296-305) -/
def Struct.text (s : Struct) (compact : Bool := false) : String :=
  if compact then compactText (textTable s.entries)
  else "Structure holding " ++ Nat.repr (dictOfList (textTable s.entries)).length ++ " entries.\n" ++
    "  Order: " ++ listText (s.order.map OrderItem.text) ++ "\n" ++
    joinWith "" ((dictOfList (textTable s.entries)).map fun p => "  " ++ p.1 ++ " = " ++ p.2 ++ "\n")

/-- `CasadiStructure.__str__(compact)` (structure3.py:843-844) -/
def CS.text (c : CS) (compact : Bool := false) : String :=
  (if compact then "" else "Structure with total size " ++ Nat.repr c.size ++ ".\n") ++ c.struct.text compact

/-- `Structured.__str__(compact)` (structure3.py:892-896) for an object with the given `description`. -/
def objText (description : String) (c : CS) (compact : Bool := false) : String :=
  if compact then description ++ " (" ++ c.text true ++ ")" else description ++ " with following structure:\n" ++ c.text

end CE.St
