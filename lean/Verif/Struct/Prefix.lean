import Verif.Struct.Objs

/-! # Prefixes and views (structure3.py:525-581, 697-760, 1407-1480) -/

namespace CE.St

variable {V : Type}

/-- `Prefixer` (structure3.py:697-744): an object, a prefix of power indices, `castmaster`.  `ref` is the shape of the matrix
`a` if the `master` of the object is a `DataReference` (structure3.py:1407-1480): the elements of `a` in column-major order
are the `master` of the object.  `DataReferenceRepeated` and `DataReferenceSquaredRepeated` keep `a` and its reshaped copy `v`,
and copy all of `v` to `a` after each write; here there is one copy, and `a` is not changed by anything else.  Both copies, and
several objects on one matrix, are modelled in `Heap.lean` (C72). -/
structure Prefixer (V : Type) where
  obj : Obj V
  pre : List (PIdx (PyFn V))
  castmaster : Bool := false
  ref : Option (ℕ × ℕ) := none

/-- `self.prefix[p]` (structure3.py:746-758) -/
def Obj.prefix (o : Obj V) (p : List (PIdx (PyFn V))) : Prefixer V := { obj := o, pre := p }

namespace Prefixer

/-- `p()` (structure3.py:735-736) -/
def call [Zero V] [Add V] [Sub V] (p : Prefixer V) : Except PyErr (Tree (SMat V)) := p.obj.getitem p.pre

/-- `p[powerIndex]` (structure3.py:738-740) -/
def getitem [Zero V] [Add V] [Sub V] (p : Prefixer V) (q : List (PIdx (PyFn V))) : Except PyErr (Tree (SMat V)) :=
  p.obj.getitem (p.pre ++ q)

/-- `p[powerIndex] = data` (structure3.py:742-744): exception or not, and the object afterwards. -/
def setitem [Zero V] (p : Prefixer V) (q : List (PIdx (PyFn V))) (v : Pay V) : Except PyErr Unit × Prefixer V :=
  ((p.obj.setitem (p.pre ++ q) v).1, { p with obj := (p.obj.setitem (p.pre ++ q) v).2 })

/-- `p.cast()` (structure3.py:721-728) -/
def cast [Zero V] [Add V] [Sub V] (p : Prefixer V) : Except PyErr (Tree (SMat V)) :=
  if p.castmaster then
    match p.ref with
    | some (r, c) => .ok (.leaf ⟨.dense r c, p.obj.master⟩)
    | none => .ok (.leaf (.col p.obj.master))
  else p.call

/-- `p.name` for an attribute `name` that a `Prefixer` does not have (`__getattr__`, structure3.py:714-722), as a function `attr` of the
matrix that has it: the matrix is the whole `master` of the object (or the matrix `a` that the `master` refers to), whatever the prefix
is, although the comment in line 715 says `self()`. -/
def getattr {α : Type} (attr : SMat V → α) (p : Prefixer V) : α :=
  match p.ref with
  | some (r, c) => attr ⟨.dense r c, p.obj.master⟩
  | none => attr (.col p.obj.master)

end Prefixer

/-- `s.repeated(a)` (structure3.py:525-539) for a `DM` or `SX` `a`: the view of the columns of `a`.  The `data` of the new
object is a `DataReferenceRepeated`, which asserts that `a` is dense and whose shape is that of a column with all elements of
`a` (line 1421), so that the constructor of the object accepts it. -/
def CS.repeated (c : CS) (a : SMat V) : Except PyErr (Prefixer V) :=
  if a.sp.rows ≠ c.size then .error .generic
  else do
    let s ← CS.ofStruct ⟨[.nested "t" [a.sp.cols] c.struct.entries c.struct.order], [.one "t"]⟩
    if ¬ a.sp.isDense then .error .assertion
    else if s.size ≠ a.sp.rows * a.sp.cols then .error .generic
    else .ok { obj := ⟨s, a.data, []⟩, pre := [.str "t"], castmaster := true, ref := some (a.sp.rows, a.sp.cols) }

end CE.St
