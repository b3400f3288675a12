import Verif.Struct.Product

/-!
# Objects that share data (structure3.py:445-582, 1039-1048, 1407-1486)

In the other files an object carries its data with it.  In Python several objects can refer to the same matrix: `struct(v)`
keeps the matrix `v` itself as `master`, `squared(v)` and `product(other, v)` read and write `v`, and `repeated(v)` and
`squared_repeated(v)` read a reshaped copy of `v` that they made when they were created.  Here matrices and objects live in a
heap and operations refer to them by number.  All matrices are `DM`.
-/

namespace CE.St

variable {V : Type} [Zero V]

/-- `SetterDispatcher.__call__` (structure3.py:611-638) as `setCall`, for any `master` with a `__setitem__`. -/
def setCallOn {σ : Type} (asg : σ → IMat → SMat V → Except PyErr σ) (map : List (CIdx × IMat)) (pay : Pay V) (c : CIdx)
    (extra : Option (List (PIdx (PyFn V)))) (entry : Option Prim) : M σ Unit := fun master =>
  match pay.toMat with
  | .error e => (.error e, master)
  | .ok m => match dictGet map c with
    | none => (.error .generic, master)
    | some idx => match performExtraIndex applyIdx idx entry false (extra.getD []) with
      | .error e => (.error e, master)
      | .ok i => match entry with
        | some ⟨_, true, orig, _⟩ =>
          match performExtraIndex applyIdx idx entry true (extra.getD []) with
          | .error e => (.error e, master)
          | .ok iflip =>
            if m.isScalar then
              match asg master i m with
              | .error e => (.error e, master)
              | .ok master => match asg master iflip m with
                | .error e => (.error e, master)
                | .ok master => (.ok (), master)
            else match orig with
              | none => (.error .attribute, master)
              | some osp => match performExtraIndex applyIdx ⟨osp, osp.nz.map fun _ => 1⟩ entry false (extra.getD []) with
                | .error e => (.error e, master)
                | .ok oi =>
                  if oi.sp ≠ m.sp then (.error .generic, master)
                  else if iflip.sp.rows ≠ m.sp.cols ∨ iflip.sp.cols ≠ m.sp.rows then (.error .runtime, master)
                  else match asg master iflip (m.T.project iflip.sp) with
                    | .error e => (.error e, master)
                    | .ok master =>
                      if i.sp.rows ≠ m.sp.rows ∨ i.sp.cols ≠ m.sp.cols then (.error .runtime, master)
                      else match asg master i (m.project i.sp) with
                        | .error e => (.error e, master)
                        | .ok master => (.ok (), master)
        | _ => match asg master i m with
          | .error e => (.error e, master)
          | .ok master => (.ok (), master)

/-- The dispatcher for writing (structure3.py:611-649) as `setDisp`, for any `master` with a `__setitem__`. -/
def setDispOn {σ : Type} (asg : σ → IMat → SMat V → Except PyErr σ) (map : List (CIdx × IMat)) :
    Disp σ V (PyFn V) (Option IMat) where
  call inner pay c x e :=
    if inner then ex ((imCall applyIdx map c x e).map some)
    else M.bind (setCallOn asg map pay c x e) fun _ => M.pure none
  outer inner f pay _ r := fun master =>
    match r.mapM' (fun
      | some i => Except.ok i
      | none => .error .type) with
    | .error e => (.error e, master)
    | .ok t => match f.onIdx t with
      | .error e => (.error e, master)
      | .ok i =>
        if inner then (.ok (.leaf (some i)), master)
        else match pay.toMat with
          | .error e => (.error e, master)
          | .ok m => match asg master i m with
            | .error e => (.error e, master)
            | .ok master => (.ok (.leaf none), master)

/-- `self[pi] = value` (structure3.py:656-660) for any `master` with a `__setitem__`. -/
def setitemOn {σ : Type} (asg : σ → IMat → SMat V → Except PyErr σ) (c : CS) (pi : List (PIdx (PyFn V))) (value : Pay V)
    (master : σ) : Except PyErr Unit × σ :=
  match c.struct.traverse (setDispOn asg c.map) pi value master with
  | (.ok _, master) => (.ok (), master)
  | (.error e, master) => (.error e, master)

/-- `DataReferenceRepeated.__setitem__` (structure3.py:1424-1427) and `DataReferenceSquaredRepeated.__setitem__`
(structure3.py:1480-1483) for the pair of the copy `v` and the elements of the matrix `a`: the assignment to `v`, and then all of
`v` to `a`. -/
def copyAssign (va : List V × List V) (i : IMat) (m : SMat V) : Except PyErr (List V × List V) :=
  (assign va.1 i m).map fun v => (v, v)

/-- The ways to make an object that refers to a matrix. -/
inductive Kind
  | call (c : CS)
  | squared (c : CS)
  | product (c d : CS)
  | repeated (c : CS)
  | squaredRepeated (c : CS)

namespace Kind

/-- The object for a matrix by itself: `c(m)` (structure3.py:481-507), seen as a view with the empty prefix (the `nan` of
`callDM` is not used for matrices), `c.squared(m)`, `c.product(d, m)`, `c.repeated(m)`, `c.squared_repeated(m)` (525-582). -/
def make : Kind → SMat V → Except PyErr (Prefixer V)
  | .call c, m => (callDM 0 c (.mat m)).map fun o => { obj := o, pre := [], castmaster := true }
  | .squared c, m => c.squared m
  | .product c d, m => c.product d m
  | .repeated c, m => c.repeated m
  | .squaredRepeated c, m => c.squaredRepeated m

/-- Whether a scalar is replaced by a new matrix (structure3.py:497-498, 541-542, 556-557). -/
def expands : Kind → SMat V → Bool
  | .call c, m => m.sp.rows = 1 ∧ m.sp.cols = 1 ∧ c.size ≠ 1
  | .squared c, m => m.sp.rows = 1 ∧ m.sp.cols = 1 ∧ c.size ≠ 1
  | .product c _, m => m.sp.rows = 1 ∧ m.sp.cols = 1 ∧ c.size ≠ 1
  | .repeated _, _ => false
  | .squaredRepeated _, _ => false

/-- The new matrix that replaces a scalar (structure3.py:498, 542, 557). -/
def expand : Kind → SMat V → SMat V
  | .call c, m => ⟨.dense c.size 1, List.replicate c.size (m.at' (0, 0))⟩
  | .squared c, m => onesTimes c.size c.size m
  | .product c d, m => onesTimes c.size d.size m
  | .repeated _, m => m
  | .squaredRepeated _, m => m

/-- Whether the object reads a copy: `self.v = a.reshape(...)` in `DataReferenceRepeated` (structure3.py:1422) and
`DataReferenceSquaredRepeated` (1478); `self.v = a` in the other two (1434, 1451), which read and write `a` anyway. -/
def copies : Kind → Bool
  | .repeated _ => true
  | .squaredRepeated _ => true
  | _ => false

/-- The elements of a matrix as the `master` of the object. -/
def values : Kind → SMat V → List V
  | .call _, m => m.toColumn
  | _, m => m.data

end Kind

/-- The object with other data. -/
def Prefixer.withData (p : Prefixer V) (l : List V) : Prefixer V := { p with obj := { p.obj with master := l } }

/-- An object in the heap: how it was made, the number of the matrix it refers to, the struct and the prefix (its data are
not used), and the copy of the elements if it has one. -/
structure HView (V : Type) where
  kind : Kind
  mat : ℕ
  view : Prefixer V
  own : Option (List V)

/-- The matrices and the objects. -/
structure Heap (V : Type) where
  mats : List (SMat V) := []
  views : List (HView V) := []

namespace Heap

/-- `obj[q]` for object `i`. -/
def read [Add V] [Sub V] (st : Heap V) (i : ℕ) (q : List (PIdx (PyFn V))) : Except PyErr (Tree (SMat V)) :=
  match st.views[i]? with
  | none => .error .index
  | some w => match st.mats[w.mat]? with
    | none => .error .index
    | some m => (w.view.withData (w.own.getD (w.kind.values m))).getitem q

/-- `obj.cat` or `obj.cast()` for object `i` (structure3.py:721-728): the matrix that it refers to. -/
def cast (st : Heap V) (i : ℕ) : Option (SMat V) := st.views[i]?.bind fun w => st.mats[w.mat]?

/-- Making an object from matrix `r`.  If it raises, nothing changes. -/
def new (st : Heap V) (k : Kind) (r : ℕ) : Except PyErr Unit × Heap V :=
  match st.mats[r]? with
  | none => (.error .index, st)
  | some m => match k.make m with
    | .error e => (.error e, st)
    | .ok p =>
      if k.expands m then (.ok (), ⟨st.mats ++ [k.expand m], st.views ++ [⟨k, st.mats.length, p, none⟩]⟩)
      else (.ok (), ⟨st.mats, st.views ++ [⟨k, r, p, if k.copies then some m.data else none⟩]⟩)

/-- `obj[q] = v` for object `i`.  Simplification: a sparse column that is the `master` of a struct is dense after a write (in
CasADi the elements that are not written remain structurally zero). -/
def write (st : Heap V) (i : ℕ) (q : List (PIdx (PyFn V))) (v : Pay V) : Except PyErr Unit × Heap V :=
  match st.views[i]? with
  | none => (.error .index, st)
  | some w => match st.mats[w.mat]? with
    | none => (.error .index, st)
    | some m => match w.own with
      | none =>
        let r := (w.view.withData (w.kind.values m)).setitem q v
        (r.1, { st with mats := st.mats.set w.mat ⟨.dense m.sp.rows m.sp.cols, r.2.obj.master⟩ })
      | some own =>
        let r := setitemOn copyAssign w.view.obj.cs (w.view.pre ++ q) v (own, m.data)
        (r.1, ⟨st.mats.set w.mat ⟨m.sp, r.2.2⟩, st.views.set i { w with own := some r.2.1 }⟩)

end Heap

/-- What a program can do: create a matrix, create an object that refers to a matrix, assign through an object, assign to
nonzero `k` of a matrix directly, copy a matrix (`DM(m)`, also done by `argtype` for an argument that is not a `DM`, for
instance a `DMStruct`; structure3.py:451-453). -/
inductive Op (V : Type)
  | alloc (m : SMat V)
  | new (k : Kind) (r : ℕ)
  | write (i : ℕ) (q : List (PIdx (PyFn V))) (v : Pay V)
  | poke (r k : ℕ) (x : V)
  | copy (r : ℕ)

/-- One operation; an exception is caught by the program. -/
def Heap.step (st : Heap V) : Op V → Except PyErr Unit × Heap V
  | .alloc m => (.ok (), { st with mats := st.mats ++ [m] })
  | .new k r => st.new k r
  | .write i q v => st.write i q v
  | .poke r k x => match st.mats[r]? with
    | none => (.error .index, st)
    | some m => (.ok (), { st with mats := st.mats.set r ⟨m.sp, m.data.set k x⟩ })
  | .copy r => match st.mats[r]? with
    | none => (.error .index, st)
    | some m => (.ok (), { st with mats := st.mats ++ [m] })

/-- A program. -/
def Heap.run (st : Heap V) : List (Op V) → Heap V
  | [] => st
  | o :: os => (st.step o).2.run os

end CE.St
