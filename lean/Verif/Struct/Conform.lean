import Verif.Struct.Objs
import Verif.Struct.Ineq

/-!
# The repository's tests of structs and inequalities, run on the model

These are tests of the model, not proofs (see `Verif/Num/Conform.lean`): the assertions of /repo/test/test_struct.py and
/repo/test/test_inequality.py are evaluated on the definitions of the model.  Random numbers are replaced by fixed ones.
-/

namespace CE.St.Conform

/-- The rows of a matrix. -/
def rows {V : Type} [Zero V] (m : SMat V) : List (List V) :=
  (List.range m.sp.rows).map fun i => (List.range m.sp.cols).map fun j => m.at' (i, j)

/-- A dense matrix with the given rows. -/
def mat {V : Type} [Zero V] (l : List (List V)) : SMat V :=
  .fill (.dense l.length (l.headD []).length) fun p => (l.getD p.1 []).getD p.2 0

/-- `s[k]` -/
def read (o : Except PyErr (Obj ℚ)) (k : String) : Option (List (List ℚ)) := (do
  let t ← (← o).getitem [.str k]
  let m ← t.toLeaf
  pure (rows m)).toOption

/-! ## test_struct.py -/

/-- `struct_symMX([entry('x', shape=2), entry('y', shape=3)])` -/
def xy : Except PyErr CS := do
  let x ← newEntry (V := ℚ) { name := "x", shape := some (.int 2) }
  let y ← newEntry (V := ℚ) { name := "y", shape := some (.int 3) }
  CS.ofList [(DefItem.one x).item, (DefItem.one y).item]

/-- `s(arg)`; the value of the elements that are not set is -1. -/
def callXY (arg : Pay ℚ) : Except PyErr (Obj ℚ) := do
  callDM (-1) (← xy) arg

-- test_pythonStructToCasadiStruct (test_struct.py:37-49)
#guard read (callXY (.dict [("x", .list [.num 2, .num 3]), ("y", .num 42)])) "x" = some [[2], [3]]
#guard read (callXY (.dict [("x", .list [.num 2, .num 3]), ("y", .num 42)])) "y" = some [[42], [42], [42]]

-- test_pythonStructToCasadiStructInvalidKeys (test_struct.py:52-61)
#guard xy.toOption.isSome
#guard (callXY (.dict [("x", .list [.num 2, .num 3]), ("yy", .num 42)])).toOption.isNone

-- test_pythonStructToCasadiStructInvalidShape (test_struct.py:64-73)
#guard (callXY (.dict [("x", .list [.num 2, .num 3]), ("y", .list [.num 42, .num 43])])).toOption.isNone

-- test_parseMatrix (test_struct.py:76-110)
#guard (do
  let r ← parseMatrix (-1) (← xy) (mat [[1, 2, 3], [4, 5, 6], [7, 8, 9], [10, 11, 12], [13, 14, 15]])
  pure (r.map fun kv : String × SMat ℚ => (kv.1, rows kv.2)) : Except PyErr (List (String × List (List ℚ)))).toOption =
  some [("x", [[1, 2, 3], [4, 5, 6]]), ("y", [[7, 8, 9], [10, 11, 12], [13, 14, 15]])]

/-! ## test_inequality.py -/

/-- `MX.sym(_, n)` with elements that are numbered from `k`. -/
def sym (k n : ℕ) : ExprObj ℕ := .mx (.fill (.dense n 1) fun p => k + p.1)

/-- A column of numbers as an argument. -/
def arg (l : List ℚ) : Option (BArg ℚ) := some (.pay (.mat (.col (l.map .fin))))

/-- A column of numbers. -/
def column (l : List ℚ) : List (List (Ext ℚ)) := l.map fun x => [.fin x]

/-- The values of a bound. -/
def vals (b : BObj ℚ) : List (List (Ext ℚ)) := rows b.toDM

/-- `-inf(n)` and `inf(n)` -/
def ninf (n : ℕ) : List (List (Ext ℚ)) := List.replicate n [.ninf]
/-- `inf(n)` -/
def pinf (n : ℕ) : List (List (Ext ℚ)) := List.replicate n [.pinf]

/-- The bounds of an inequality. -/
def bounds (i : Except PyErr (Ineq ℕ ℚ)) : Option (List (List (Ext ℚ)) × List (List (Ext ℚ))) :=
  (i.map fun i => (vals i.lb, vals i.ub)).toOption

/-- `numel()` -/
def numel (i : Except PyErr (Ineq ℕ ℚ)) : Option ℕ := (i.map Ineq.numel).toOption

-- test_ctor (test_inequality.py:37-44)
#guard bounds (newIneq (sym 0 2) (arg [-1, -2]) (arg [3, 4]) none) = some (column [-1, -2], column [3, 4])
-- test_ctorInconsistentShape (test_inequality.py:47-51)
#guard bounds (newIneq (sym 0 2) (arg [-1, -2, -3]) (arg [3, 4]) none) = none
-- test_ctorDefaultBounds, ...DefaultLowerBound, ...DefaultUpperBound (test_inequality.py:54-75)
#guard bounds (newIneq (sym 0 3) none none none) = some (ninf 3, pinf 3)
#guard bounds (newIneq (sym 0 3) none (arg [1, 2, 3]) none) = some (ninf 3, column [1, 2, 3])
#guard bounds (newIneq (sym 0 3) (arg [1, 2, 3]) none none) = some (column [1, 2, 3], pinf 3)
-- test_numel, test_empty (test_inequality.py:78-89)
#guard numel (newIneq (sym 0 3) none none none) = some 3
#guard numel emptyIneq = some 0

/-- Bounds and nominal values in place of the random ones of test_vertcat_list and test_vertcat_dict. -/
def i1 : Except PyErr (Ineq ℕ ℚ) := newIneq (sym 0 3) (arg [1/10, 2/10, 3/10]) (arg [4/10, 5/10, 6/10]) (arg [7/10, 8/10, 9/10])
/-- The second inequality. -/
def i2 : Except PyErr (Ineq ℕ ℚ) := newIneq (sym 3 4) (arg [1, 2, 3, 4]) (arg [5, 6, 7, 8]) (arg [9, 10, 11, 12])

/-- The bounds and the nominal value. -/
def all (i : Except PyErr (Ineq ℕ ℚ)) : Option (List (List (List (Ext ℚ)))) :=
  (i.map fun i => [vals i.lb, vals i.ub, (i.nominal.map vals).getD []]).toOption

/-- The expected result of both kinds of concatenation. -/
def both : Option (List (List (List (Ext ℚ)))) :=
  some [column [1/10, 2/10, 3/10, 1, 2, 3, 4], column [4/10, 5/10, 6/10, 5, 6, 7, 8],
    column [7/10, 8/10, 9/10, 9, 10, 11, 12]]

/-- `vertcat({'i1': i1, 'i2': i2})` -/
def i3 : Except PyErr (Ineq ℕ ℚ) := do
  vertcatDict [("i1", ← i1), ("i2", ← i2)]

-- test_vertcat_list (test_inequality.py:92-108)
#guard all (do vertcatList [← i1, ← i2]) = both
#guard numel (do vertcatList [← i1, ← i2]) = some 7
-- test_vertcat_dict (test_inequality.py:111-133)
#guard all i3 = both
#guard numel i3 = some 7

/-- `b[k]` for a bound that is a struct, as a bound. -/
def part (i : Except PyErr (Ineq ℕ ℚ)) (f : Ineq ℕ ℚ → Option (BObj ℚ)) (k : String) : Option (List (List (Ext ℚ))) := do
  match f (← i.toOption) with
  | some (.st o) => do
    let t ← (o.getitem [.str k]).toOption
    let m ← t.toLeaf.toOption
    pure (rows m)
  | _ => none

#guard part i3 (fun i => some i.lb) "i1" = some (column [1/10, 2/10, 3/10])
#guard part i3 (fun i => some i.ub) "i1" = some (column [4/10, 5/10, 6/10])
#guard part i3 (fun i => some i.lb) "i2" = some (column [1, 2, 3, 4])
#guard part i3 (fun i => some i.ub) "i2" = some (column [5, 6, 7, 8])
#guard part i3 (fun i => i.nominal) "i2" = some (column [9, 10, 11, 12])

-- BoundedVariableTest (test_inequality.py:136-166)
#guard bounds (boundedVariable (E := ℕ) (fun p => p.1) (arg [-1, -2]) (arg [3, 4]) (.dm (.col [.fin 1, .fin 2]))) =
  some (column [-1, -2], column [3, 4])
#guard bounds (boundedVariable (E := ℕ) (fun p => p.1) none none (.dm (.col [.fin 1, .fin 2]))) = some (ninf 2, pinf 2)
#guard numel (boundedVariable (fun p => p.1) none none (.dm (.col [.fin 0, .fin 0, .fin 0, .fin 0]))) = some 4

end CE.St.Conform
