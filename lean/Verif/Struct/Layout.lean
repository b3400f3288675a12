import Verif.Struct.Base

/-!
# Structure definition and layout (structure3.py:52-96, 162-193, 275-336, 764-869)

An entry is either primitive or holds a nested struct.  Simplification: an entry with a nested struct has no `type`.
-/

namespace CE.St

/-! ## Helpers -/

/-- `lpack` (structure3.py:53) -/
def lpack {α : Type} (l : List α) : List (List α) := l.map fun x => [x]

/-- `combine(*args)` (structure3.py:55-59) -/
def combine {α : Type} : List (List (List α)) → List (List α)
  | [] => [[]]
  | l :: ls => l.flatMap fun a => (combine ls).map fun b => a ++ b

/-- `list(range(n))` as elements of canonical indices. -/
def rangeKeys (n : ℕ) : List Key := (List.range n).map fun i : ℕ => .int i

/-- `listindices(dims)` (structure3.py:61-72) for `nest=False` -/
def listindices : List ℕ → List CIdx
  | [] => [[]]
  | d :: ds => combine [lpack (rangeKeys d), listindices ds]

/-- `listindices(dims, True)` (structure3.py:61-72) -/
def listindicesNest : List ℕ → List (List CIdx)
  | [] => [[[]]]
  | d :: ds => (rangeKeys d).map fun i => combine [[[i]], listindices ds]

/-- The loop of `intersperseIt` (structure3.py:74-83); one unit of fuel per turn. -/
def intersperseGo {α : Type} : ℕ → List (List α) → List Bool → ℕ → List α
  | 0, _, _, _ => []
  | fuel + 1, its, active, i =>
    if active.any id then
      match its[i]? with
      | some (a :: rest) => a :: intersperseGo fuel (its.set i rest) active ((i + 1) % its.length)
      | _ => intersperseGo fuel its (active.set i false) ((i + 1) % its.length)
    else []

/-- `intersperse(*args)` (structure3.py:74-86); the fuel is enough (`intersperse_eq`). -/
def intersperse {α : Type} (args : List (List α)) : List α :=
  intersperseGo ((args.flatten.length + 1) * args.length) args (args.map fun _ => true) 0

/-- `canonicalIndexAncestors(ind)` (structure3.py:88-90).  `ind[:-k]` with `k` the distance of the last string from the end;
an index without a string raises ValueError in the code, the recursion of the model stops (such indices do not occur:
canonical indices start with a name). -/
def canonicalIndexAncestors (ind : CIdx) : List CIdx :=
  if h : ind = [] then []
  else ind :: canonicalIndexAncestors (ind.take (ind.length - ((ind.reverse.findIdx Key.isStr) + 1)))
termination_by ind.length
decreasing_by
  have : 0 < ind.length := List.length_pos_iff.mpr h
  rw [List.length_take]
  omega

/-- `canonical(ind, s)` (structure3.py:92-96) -/
def canonical (ind : ℤ) (s : ℕ) : ℤ := if ind < 0 then ind + s else ind

/-! ## Entries and structs -/

/-- What `delegation` uses of a structure: `s.f.__getitem__` and `s.i.__getitem__`. -/
structure ShapeFns where
  f : List (PIdx Empty) → Except PyErr (List ℤ)
  i : List (PIdx Empty) → Except PyErr (Tree IMat)

/-- What a primitive entry carries (`CasadiStructEntry`, structure3.py:1175-1318): `sparsity`, whether `type == "symm"`,
`originalsparsity` (if the attribute exists), `shapestruct` as the list of the functions `s.f.__getitem__` and
`s.i.__getitem__` of its structures (`none` for a number). -/
structure Prim where
  sp : Sparsity
  symm : Bool := false
  orig : Option Sparsity := none
  ss : Option (List (Option ShapeFns)) := none

/-- An element of `order`: a name or a tuple of names. -/
inductive OrderItem
  | one (name : String)
  | tup (names : List String)
  deriving DecidableEq, Repr

/-- `StructEntry` (structure3.py:162-273): name, `dims`, and either primitive data or the `entries` and `order` of the
nested struct. -/
inductive Entry
  | prim (name : String) (dims : List ℕ) (p : Prim)
  | nested (name : String) (dims : List ℕ) (entries : List Entry) (order : List OrderItem)

/-- `Structure` (structure3.py:275-429): `entries` and `order`. -/
structure Struct where
  entries : List Entry
  order : List OrderItem

namespace Entry

/-- `name` -/
def name : Entry → String
  | .prim n _ _ => n
  | .nested n _ _ _ => n

/-- `dims` -/
def dims : Entry → List ℕ
  | .prim _ d _ => d
  | .nested _ d _ _ => d

/-- `sparsity` (dense 1x1 for an entry with a struct, structure3.py:1244). -/
def sparsity : Entry → Sparsity
  | .prim _ _ p => p.sp
  | .nested .. => .dense 1 1

end Entry

/-- The names in an element of `order`. -/
def OrderItem.names : OrderItem → List String
  | .one n => [n]
  | .tup ns => ns

/-- `keyslist` (structure3.py:280) -/
def Struct.keys (s : Struct) : List String := s.order.flatMap OrderItem.names

/-- `self.dict[name]` (structure3.py:282): the last entry of that name. -/
def dictEntry (es : List Entry) (n : String) : Option Entry := es.reverse.find? fun e => e.name = n

/-- `Structure.__init__` (structure3.py:276-291) -/
def Struct.new (entries : List Entry) (order : Option (List OrderItem)) : Except PyErr Struct :=
  let ord := order.getD (entries.map fun e => .one e.name)
  if ord.all fun o => o.names.all fun n => (dictEntry entries n).isSome then .ok ⟨entries, ord⟩
  else .error .generic

/-- `StructEntry.traverseCanonicalIndex(False, ..)` (structure3.py:186-193), given `children`. -/
def entryCan (name : String) (dims : List ℕ) (children : List CIdx) : List CIdx :=
  combine [[[.str name]], listindices dims, children]

/-- `StructEntry.traverseCanonicalIndex(True, ..)` (structure3.py:186-193), given `children`. -/
def entryCanNest (name : String) (dims : List ℕ) (children : List CIdx) : List (List CIdx) :=
  (listindicesNest dims).map fun i => combine [[[.str name]], i, children]

/-- `Structure.traverseCanonicalIndex` (structure3.py:309-317), given name, dims and children of all entries.  `__init__`
has checked that the names exist. -/
def structCan (order : List OrderItem) (table : List (String × List ℕ × List CIdx)) : List CIdx :=
  order.flatMap fun
    | .one n => match table.reverse.find? (·.1 = n) with
      | some (n, dims, ch) => entryCan n dims ch
      | none => []
    | .tup ns => (intersperse (ns.map fun n => match table.reverse.find? (·.1 = n) with
      | some (n, dims, ch) => entryCanNest n dims ch
      | none => [])).flatten

mutual
/-- `children` in `StructEntry.traverseCanonicalIndex(limit)` (structure3.py:187). -/
def Entry.children (limit : ℤ) : Entry → List CIdx
  | .prim .. => [[]]
  | .nested _ _ es order => if limit = 0 then [[]] else structCan order (childTable (limit - 1 - 1) es)
/-- Name, dims and `children` of all entries for a given `limit`. -/
def childTable (limit : ℤ) : List Entry → List (String × List ℕ × List CIdx)
  | [] => []
  | e :: es => (e.name, e.dims, e.children limit) :: childTable limit es
end

/-- `Structure.traverseCanonicalIndex(limit)` (structure3.py:309-317) -/
def Struct.traverseCanonicalIndex (s : Struct) (limit : ℤ := 1000) : List CIdx :=
  structCan s.order (childTable (limit - 1) s.entries)

/-- `getStructEntryByStructIndex` (structure3.py:195-196, 319-324) -/
def entryByPath : List Entry → List String → Except PyErr Entry
  | _, [] => .error .index
  | es, n :: path => match dictEntry es n with
    | none => .error .generic
    | some e => if path = [] then .ok e else match e with
      | .prim .. => .error .attribute
      | .nested _ _ es' _ => entryByPath es' path

/-- The strings of a canonical index. -/
def strings (c : CIdx) : List String := c.filterMap fun
  | .str s => some s
  | .int _ => none

/-- `getStructEntryByCanonicalIndex` (structure3.py:326-327) -/
def Struct.entryByCanonical (s : Struct) (c : CIdx) : Except PyErr Entry := entryByPath s.entries (strings c)

/-! ## `CasadiStructure` -/

/-- The attributes of a `CasadiStructure` (structure3.py:764-869). -/
structure CS where
  struct : Struct
  map : List (CIdx × IMat)
  /-- `lookuptable`: canonical index, number of the nonzero, (column, row) -/
  table : List (CIdx × ℕ × (ℕ × ℕ))
  size : ℕ

/-- The variables of the loop in `CasadiStructure.__init__` (structure3.py:802-819). -/
structure Build where
  map : List (CIdx × IMat) := []
  table : List (CIdx × ℕ × (ℕ × ℕ)) := []
  hmap : List (CIdx × List IMat) := []
  k : ℕ := 0

/-- One turn of the loop (structure3.py:808-819). -/
def Build.step (b : Build) (i : CIdx) (sp : Sparsity) : Build :=
  let m : IMat := ⟨sp, (List.range sp.nnz).map (b.k + ·)⟩
  { k := b.k + sp.nnz
    map := dictSet b.map i m
    table := b.table ++ sp.nz.zipIdx.map fun p => (i, p.2, (p.1.2, p.1.1))
    hmap := (canonicalIndexAncestors i).tail.foldl
      (fun h a => match dictGet h a with
        | some l => dictSet h a (l ++ [m])
        | none => dictSet h a [m]) b.hmap }

/-- The loop over the canonical indices (structure3.py:807-819). -/
def Build.run (s : Struct) : List CIdx → Build → Except PyErr Build
  | [], b => .ok b
  | i :: is, b => match s.entryByCanonical i with
    | .error e => .error e
    | .ok e => Build.run s is (b.step i e.sparsity)

/-- `vertcat(*[i.nz[:] for i in v])` (structure3.py:822) -/
def nzCat (v : List IMat) : IMat := .col (v.flatMap fun m => m.data)

/-- `CasadiStructure.__init__` (structure3.py:798-841), after `Structure.__init__`. -/
def CS.ofStruct (s : Struct) : Except PyErr CS :=
  match Build.run s s.traverseCanonicalIndex {} with
  | .error e => .error e
  | .ok b => .ok
    { struct := s
      map := dictUpdate b.map (b.hmap.map fun p => (p.1, nzCat p.2))
      table := b.table
      size := b.k }

/-- `CasadiStructure(entries, order)` (structure3.py:798-841) -/
def CS.new (entries : List Entry) (order : Option (List OrderItem)) : Except PyErr CS :=
  match Struct.new entries order with
  | .error e => .error e
  | .ok s => CS.ofStruct s

/-- `getCanonicalIndex(i, extraMode)` (structure3.py:846-859) -/
def CS.getCanonicalIndex (c : CS) (i : ℤ) (extraMode : ℤ := 1) : Except PyErr CIdx :=
  if i < 0 ∨ i ≥ c.size then .error .generic
  else match c.table[i.toNat]? with
    | none => .error .index
    | some (can, k, p) =>
      if extraMode = 0 then .ok can
      else if extraMode = 1 then .ok (can ++ [.int k])
      else .ok (can ++ [.int p.1, .int p.2])

/-! ## `EntryList` -/

/-- An element of the list of entries: an entry or a tuple of entries. -/
inductive Item
  | one (e : Entry)
  | tup (es : List Entry)

/-- The entries of an element. -/
def Item.entries : Item → List Entry
  | .one e => [e]
  | .tup es => es

/-- Its contribution to `order` (structure3.py:1346, 1350). -/
def Item.orderItem : Item → OrderItem
  | .one e => .one e.name
  | .tup es => .tup (es.map Entry.name)

/-- `EntryList(arg, order)` (structure3.py:1335-1364): entries and order. -/
def entryList (arg : List Item) (order : Option (List OrderItem)) : Except PyErr (List Entry × List OrderItem) :=
  let entries := arg.flatMap Item.entries
  let ord := arg.map Item.orderItem
  let names := entries.map Entry.name
  if order.isSome ∧ (arg.any fun | .tup _ => true | .one _ => false) then .error .generic
  else if ¬ names.Nodup then .error .generic
  else .ok (entries, order.getD ord)

/-- `struct(list, order)` (structure3.py:914-922): the struct of a `CasadiStructured` made from a list of entries. -/
def CS.ofList (arg : List Item) (order : Option (List OrderItem) := none) : Except PyErr CS :=
  match entryList arg order with
  | .error e => .error e
  | .ok (es, ord) => CS.new es (some ord)

end CE.St
