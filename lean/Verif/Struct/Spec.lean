import Verif.Struct.Trav
import Mathlib.Algebra.BigOperators.Group.List.Basic

/-! # Notions used in the statements about structs -/

namespace CE.St

/-- Repeat indices inside the repeat counts. -/
def InDims (ks : CIdx) (dims : List ℕ) : Prop := List.Forall₂ (fun k (d : ℕ) => ∃ i : ℕ, i < d ∧ k = .int i) ks dims

/-- A struct is well-formed if the names of its entries are distinct, `order` names each entry exactly once, the patterns of
primitive entries are canonical, and nested structs are well-formed. -/
inductive WFs : List Entry → List OrderItem → Prop
  | mk {es : List Entry} {order : List OrderItem}
      (nodup : (es.map Entry.name).Nodup)
      (perm : (order.flatMap OrderItem.names).Perm (es.map Entry.name))
      (canon : ∀ n d p, Entry.prim n d p ∈ es → p.sp.Canon)
      (sub : ∀ n d es' o, Entry.nested n d es' o ∈ es → WFs es' o) : WFs es order

/-- The canonical indices of the primitive elements of a struct: the name of an entry, repeat indices within the repeat
counts and, for an entry with a struct, a canonical index of that struct. -/
inductive IsLeaf : List Entry → CIdx → Prim → Prop
  | prim {es n dims p ks} : Entry.prim n dims p ∈ es → InDims ks dims → IsLeaf es (.str n :: ks) p
  | nested {es n dims es' o ks c p} : Entry.nested n dims es' o ∈ es → InDims ks dims → IsLeaf es' c p →
      IsLeaf es (.str n :: (ks ++ c)) p

/-- The canonical indices of the nested structs of a struct, with the entries and order of the nested struct. -/
inductive IsNode : List Entry → CIdx → List Entry → List OrderItem → Prop
  | top {es n dims es' o ks} : Entry.nested n dims es' o ∈ es → InDims ks dims → IsNode es (.str n :: ks) es' o
  | nested {es n dims es' o ks c es'' o''} : Entry.nested n dims es' o ∈ es → InDims ks dims → IsNode es' c es'' o'' →
      IsNode es (.str n :: (ks ++ c)) es'' o''

mutual
/-- Number of scalars of an entry: product of the repeat counts times the number of nonzeros of a primitive entry, or times
the number of scalars of the nested struct. -/
def Entry.count : Entry → ℕ
  | .prim _ d p => d.prod * p.sp.nz.length
  | .nested _ d es _ => d.prod * countAll es
/-- Number of scalars of a list of entries. -/
def countAll : List Entry → ℕ
  | [] => 0
  | e :: es => e.count + countAll es
end

/-- Number of scalars of one repetition of an entry. -/
def Entry.blockSize : Entry → ℕ
  | .prim _ _ p => p.sp.nz.length
  | .nested _ _ es _ => countAll es

/-- Row-major number of a tuple of repeat indices. -/
def ravel : List ℕ → List ℕ → ℕ
  | _ :: ds, i :: is => i * ds.prod + ravel ds is
  | _, _ => 0

/-- The struct itself or a nested struct: canonical index, entries and order. -/
inductive IsAt (es : List Entry) (o : List OrderItem) : CIdx → List Entry → List OrderItem → Prop
  | root : IsAt es o [] es o
  | node {a es' o'} : IsNode es a es' o' → IsAt es o a es' o'

/-- The canonical indices that can be read and written as a whole, with the pattern of what is read: primitive elements (with
what the entry carries) and nested structs with at least one element (a dense column). -/
inductive IsPart (es : List Entry) : CIdx → Option Prim → Sparsity → Prop
  | leaf {c p} : IsLeaf es c p → IsPart es c (some p) p.sp
  | node {a es' o' d p} : IsNode es a es' o' → IsLeaf es' d p → IsPart es a none (.dense (countAll es') 1)

/-- The matrix that a payload for a single element denotes: a matrix, a number, a list of numbers (a column), a
list of rows. -/
inductive IsValue {V : Type} : Pay V → SMat V → Prop
  | mat (m : SMat V) : IsValue (.mat m) m
  | num (v : V) : IsValue (.num v) ⟨.dense 1 1, [v]⟩
  | list (l : List V) : IsValue (.list (l.map .num)) ⟨.dense l.length 1, l⟩
  | rows (L : List (List V)) (n : ℕ) (d : List V) : L ≠ [] → (∀ r ∈ L, r.length = n) → d.length = L.length * n →
      (∀ i < L.length, ∀ j < n, d[j * L.length + i]? = (L[i]?).bind (·[j]?)) →
      IsValue (.list (L.map fun r => .list (r.map .num))) ⟨.dense L.length n, d⟩

/-- A matrix `m` can be written to an element with pattern `sp`, which then has the value `f p` at position `p`: `m` has the
shape of the element, or is a scalar, or is a vector whose transpose has the shape. -/
inductive Fits {V : Type} [Zero V] (sp : Sparsity) (m : SMat V) : (ℕ × ℕ → V) → Prop
  | same : m.sp.rows = sp.rows → m.sp.cols = sp.cols → Fits sp m m.at'
  | scalar : m.sp.rows = 1 → m.sp.cols = 1 → Fits sp m fun _ => m.at' (0, 0)
  | trans : m.sp.rows = sp.cols → m.sp.cols = sp.rows → min m.sp.rows m.sp.cols = 1 → Fits sp m fun p => m.at' (p.2, p.1)

/-- Assignments one after another, up to the first exception. -/
def Obj.setAll {V : Type} [Zero V] (o : Obj V) : List (List (PIdx (PyFn V)) × Pay V) → Except PyErr Unit × Obj V
  | [] => (.ok (), o)
  | (pi, v) :: l => match o.setitem pi v with
    | (.ok _, o') => o'.setAll l
    | (.error e, o') => (.error e, o')

/-- Natural numbers as elements of a canonical index. -/
def natKeys (is : List ℕ) : CIdx := is.map fun i : ℕ => .int i

end CE.St
