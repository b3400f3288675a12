import Verif.Struct.Prefix
import Verif.Struct.EntryDef

/-! # Views of matrices by two structs (structure3.py:538-581, 1431-1490) -/

namespace CE.St

variable {V : Type} [Zero V]

/-- `DM.ones(n, m)*a` for a scalar `a`: dense, unless the scalar is structurally zero. -/
def onesTimes (n m : ℕ) (a : SMat V) : SMat V :=
  if a.sp.isDense then .fill (.dense n m) fun _ => a.at' (0, 0) else ⟨⟨n, m, []⟩, []⟩

/-- The struct of the views: `struct([entry("t", shapestruct=(c, d), repeat=...)])`. -/
def viewStruct (c d : CS) (rep : Option (List ℕ)) : Except PyErr CS := do
  let e ← newEntry (V := V) { name := "t", shapestruct := some (.tup [.struct c, .struct d]), repeat' := rep }
  CS.ofList [.one e.entry]

/-- The object with a `DataReference` to `a` as data, and its prefix `"t"` (structure3.py:545-551, 560-566, 575-581): the
references assert that `a` is dense (lines 1433, 1450, 1474), the constructor of the object checks the number of elements. -/
def matrixView (s : CS) (a : SMat V) : Except PyErr (Prefixer V) :=
  if ¬ a.sp.isDense then .error .assertion
  else if s.size ≠ a.sp.rows * a.sp.cols then .error .generic
  else .ok { obj := ⟨s, a.data, []⟩, pre := [.str "t"], castmaster := true, ref := some (a.sp.rows, a.sp.cols) }

/-- `s.squared(a)` (structure3.py:538-551) for a `DM` or `SX` `a`. -/
def CS.squared (c : CS) (a : SMat V) : Except PyErr (Prefixer V) :=
  let a := if a.sp.rows = 1 ∧ a.sp.cols = 1 ∧ c.size ≠ 1 then onesTimes c.size c.size a else a
  if ¬ (a.sp.cols = a.sp.rows ∧ a.sp.rows = c.size) then .error .generic
  else (viewStruct (V := V) c c none).bind fun s => matrixView s a

/-- `s.product(other, a)` (structure3.py:553-566) for a `DM` or `SX` `a`. -/
def CS.product (c d : CS) (a : SMat V) : Except PyErr (Prefixer V) :=
  let a := if a.sp.rows = 1 ∧ a.sp.cols = 1 ∧ c.size ≠ 1 then onesTimes c.size d.size a else a
  if ¬ (a.sp.cols = d.size ∧ a.sp.rows = c.size) then .error .generic
  else (viewStruct (V := V) c d none).bind fun s => matrixView s a

/-- `s.squared_repeated(a)` (structure3.py:568-581) for a `DM` or `SX` `a`. -/
def CS.squaredRepeated (c : CS) (a : SMat V) : Except PyErr (Prefixer V) :=
  if a.sp.rows ≠ c.size then .error .generic
  else if c.size = 0 then .error .zeroDiv
  else if a.sp.cols % c.size ≠ 0 then .error .generic
  else (viewStruct (V := V) c c (some [a.sp.cols / c.size])).bind fun s => matrixView s a

end CE.St
