import Verif.Struct.Layout

/-! # Labels (structure3.py:861-869) -/

namespace CE.St

/-- `str(x)` for an element of a canonical index. -/
def Key.toStr : Key → String
  | .str s => s
  | .int i => Int.repr i

/-- `",".join(l)` -/
def joinComma : List String → String
  | [] => ""
  | [a] => a
  | a :: l => a ++ "," ++ joinComma l

/-- `getLabel(i, extraMode)` (structure3.py:864-866) -/
def CS.getLabel (c : CS) (i : ℤ) (extraMode : ℤ := 1) : Except PyErr String :=
  (c.getCanonicalIndex i extraMode).map fun t => "[" ++ joinComma (t.map Key.toStr) ++ "]"

/-- `canonicalIndices(extraMode)` (structure3.py:861-862) -/
def CS.canonicalIndices (c : CS) (extraMode : ℤ := 1) : Except PyErr (List CIdx) :=
  (List.range c.size).mapM fun i : ℕ => c.getCanonicalIndex i extraMode

/-- `labels(extraMode)` (structure3.py:868-869) -/
def CS.labels (c : CS) (extraMode : ℤ := 1) : Except PyErr (List String) :=
  (List.range c.size).mapM fun i : ℕ => c.getLabel i extraMode

end CE.St
