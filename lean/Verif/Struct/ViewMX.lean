import Verif.Struct.BuildMap
import Verif.Struct.Product

/-! # Views of `MX` matrices by two structs (structure3.py:538-581, 966-996, 1088-1092) -/

namespace CE.St

variable {V : Type} [Zero V]

/-- The constructor of `MXStruct` (structure3.py:1089-1092) after that of `MatrixStruct`, for a `DataReference` as data: `buildMap` with
the matrix that is referred to as parent (lines 970-971). -/
def Prefixer.withPrio (p : Prefixer V) : Except PyErr (Prefixer V) := do
  let prio ← buildMap p.obj.cs.struct (match p.ref with
    | some (n, m) => ⟨.dense n m, p.obj.master⟩
    | none => .col p.obj.master)
  pure { p with obj := { p.obj with prio := prio } }

/-- `s.squared(a)` (structure3.py:538-551) for an `MX` `a`. -/
def CS.squaredMX (c : CS) (a : SMat V) : Except PyErr (Prefixer V) := (c.squared a).bind Prefixer.withPrio

/-- `s.product(other, a)` (structure3.py:553-566) for an `MX` `a`. -/
def CS.productMX (c d : CS) (a : SMat V) : Except PyErr (Prefixer V) := (c.product d a).bind Prefixer.withPrio

/-- `s.squared_repeated(a)` (structure3.py:568-581) for an `MX` `a`. -/
def CS.squaredRepeatedMX (c : CS) (a : SMat V) : Except PyErr (Prefixer V) := (c.squaredRepeated a).bind Prefixer.withPrio

end CE.St
