import Verif.Struct.Objs

/-! # The struct of a nested entry (structure3.py:329-336) -/

namespace CE.St

/-- `Structure.getStruct(name)` (structure3.py:329-336); `self.struct` is the struct itself (line 841).  For an unknown name
the construction of the message raises AttributeError (`name.keys()`).  The result is the `CasadiStructure` object from which the
entry was defined. -/
def CS.getStruct (c : CS) (name : String) : Except PyErr CS :=
  match c.struct.entries.reverse.find? (·.name = name) with
  | none => .error .attribute
  | some (.prim ..) => .error .generic
  | some (.nested _ _ es order) => CS.ofStruct ⟨es, order⟩

end CE.St
