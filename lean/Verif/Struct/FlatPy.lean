import Verif.Struct.LemCallable
import Verif.Struct.LemFlat
import Verif.Struct.PropsAll

/-!
# The flat getter `s.f` with dicts and callables (structure3.py:98-102, 432-441, 774-783, 834-837)

`CS.f` of `Trav.lean` models `s.f[index]` for results without dicts and indices without callables.  Here the result is any nesting
of integers, lists and dicts, and `vec` is modelled as it is.
-/

namespace CE.St

/-- Python values that `s.f[index]` can return: integers, lists, and dicts with strings as keys. -/
inductive PyV
  | int (i : ℤ)
  | list (l : List PyV)
  | dict (l : List (String × PyV))

namespace PyV

/-- A list of integers. -/
def ints (l : List ℤ) : PyV := .list (l.map .int)

/-- `isinstance(i, list)` -/
def isList : PyV → Bool
  | .list _ => true
  | _ => false

/-- `a + b` for a list `a` (Python): TypeError unless `b` is a list. -/
def append (a : List PyV) : PyV → Except PyErr (List PyV)
  | .list b => .ok (a ++ b)
  | _ => .error .type

/-- `vec(e)` (structure3.py:98-102).  `for i in e` raises TypeError for an integer, and goes through the keys, which are strings, of
a dict.  The sum is computed from the right here; the only exception that can occur is TypeError in either order. -/
def vec : PyV → Except PyErr PyV
  | .int _ => .error .type
  | .dict l => .ok (.dict l)
  | .list l => if l.any isList then (goList l).map .list else .ok (.list l)
where
  /-- `sum(list(map(vec, e)), [])` -/
  goList : List PyV → Except PyErr (List PyV)
    | [] => .ok []
    | t :: l => (vec t).bind fun a => (goList l).bind fun b => match a with
        | .list a => append a (.list b)
        | _ => .error .type

end PyV

/-- A Python callable inside a power index for `s.f`: what it does to an index matrix (in an extra index), and what it does to the
result of the rest of the index. -/
structure FlatFn where
  onIdx : Tree IMat → Except PyErr IMat
  onFlat : PyV → Except PyErr PyV

/-- The result of a traversal as a Python value. -/
def Tree.py {R : Type} (f : R → PyV) : Tree R → PyV
  | .leaf r => f r
  | .list l => .list (goList l)
  | .dict l => .dict (goDict l)
where
  goList : List (Tree R) → List PyV
    | [] => []
    | t :: l => Tree.py f t :: goList l
  goDict : List (String × Tree R) → List (String × PyV)
    | [] => []
    | (k, t) :: l => (k, Tree.py f t) :: goDict l

/-- The dispatcher for `s.f[...]` (structure3.py:774-783), with the treatment of callables of `Dispatcher` (structure3.py:432-441):
below a callable the same dispatcher is used, and the value of the callable is handed on as it is. -/
def flatPyDisp {V : Type} (map : List (CIdx × IMat)) : Disp Unit V FlatFn PyV where
  call _ _ c x e := ex ((flatCall FlatFn.onIdx map c x e).map PyV.ints)
  outer _ f _ _ r := ex ((f.onFlat (r.py id)).map .leaf)

/-- The traversal in `s.f[pi]` (structure3.py:836-837) -/
def CS.fRaw (c : CS) (pi : List (PIdx FlatFn)) : Except PyErr PyV :=
  ((c.struct.traverse (flatPyDisp (V := Empty) c.map) pi .none ()).1).map (Tree.py id)

/-- `s.f[pi]` (structure3.py:834-837) -/
def CS.fPy (c : CS) (pi : List (PIdx FlatFn)) : Except PyErr PyV := (c.fRaw pi).bind PyV.vec

/-! ## Results of traversals -/

theorem py_goList {R : Type} (f : R → PyV) (l : List (Tree R)) : Tree.py.goList f l = l.map (Tree.py f) := by
  induction l with
  | nil => rfl
  | cons t l ih => rw [Tree.py.goList, ih, List.map_cons]

theorem py_goDict {R : Type} (f : R → PyV) (l : List (String × Tree R)) :
    Tree.py.goDict f l = l.map fun x => (x.1, x.2.py f) := by
  induction l with
  | nil => rfl
  | cons t l ih => rw [Tree.py.goDict, ih, List.map_cons]

/-- The same Python value. -/
def PyRel (t : Tree PyV) (t' : Tree (List ℤ)) : Prop := t.py id = t'.py PyV.ints

theorem PyRel.list {l : List (Tree PyV)} {l' : List (Tree (List ℤ))} (h : List.Forall₂ PyRel l l') :
    PyRel (.list l) (.list l') := by
  rw [PyRel, Tree.py, Tree.py, py_goList, py_goList]
  congr 1
  induction h with
  | nil => rfl
  | cons h _ ih => rw [List.map_cons, List.map_cons, h, ih]

theorem PyRel.dict {l : List (String × Tree PyV)} {l' : List (String × Tree (List ℤ))}
    (h : List.Forall₂ (fun x y => x.1 = y.1 ∧ PyRel x.2 y.2) l l') : PyRel (.dict l) (.dict l') := by
  rw [PyRel, Tree.py, Tree.py, py_goDict, py_goDict]
  congr 1
  induction h with
  | nil => rfl
  | cons h _ ih => rw [List.map_cons, List.map_cons, h.1, h.2, ih]

/-- Traversals with the same result. -/
abbrev PTrav (t : Trav Unit Empty FlatFn PyV) (t' : Trav Unit Empty Empty (List ℤ)) : Prop :=
  ∀ pi inner c, MRel (fun _ _ : Unit => True) PyRel (t (pi.map .lift) inner c .none) (t' pi inner c .none)

theorem call_py (map : List (CIdx × IMat)) (inner : Bool) (c : CIdx) (x : Option (List (PIdx Empty))) (e : Option Prim) :
    MRel (fun _ _ : Unit => True) PyRel
      (M.bind ((flatPyDisp (V := Empty) map).call inner .none c (x.map fun x => x.map .lift) e) fun r => M.pure (.leaf r))
      (M.bind ((flatDisp (V := Empty) map).call inner .none c x e) fun r => M.pure (.leaf r)) := by
  have hx : (x.map fun x => x.map .lift).getD [] = (x.getD []).map (PIdx.lift (F := FlatFn)) := by cases x <;> rfl
  simp only [flatPyDisp, flatDisp, flatCall, hx]
  cases dictGet map c with
  | none => exact MRel.throw _
  | some m =>
    simp only
    rw [performExtraIndex_lift]
    cases performExtraIndex (fun f : Empty => f.elim) m e false (x.getD []) with
    | error e => exact MRel.throw _
    | ok r =>
      simp only [Except.bind]
      by_cases hd : r.sp.isDense = true
      · rw [if_pos hd]
        exact MRel.pure rfl
      · rw [if_neg hd]
        exact MRel.throw _

theorem goEntry_py (map : List (CIdx × IMat)) {leaf : Trav Unit Empty FlatFn PyV} {leaf' : Trav Unit Empty Empty (List ℤ)}
    (hl : PTrav leaf leaf') (ds : List ℕ) : PTrav (goEntry (flatPyDisp map) leaf ds) (goEntry (flatDisp map) leaf' ds) := by
  induction ds with
  | nil =>
    intro pi inner c
    rw [goEntry_nil, goEntry_nil]
    exact hl pi inner c
  | cons s ds ih =>
    have halls : (ds.map fun _ => (PIdx.all : PIdx FlatFn)) = (ds.map fun _ => (PIdx.all : PIdx Empty)).map .lift := by
      rw [List.map_map]; rfl
    intro pi inner c
    cases pi with
    | nil =>
      rw [List.map_nil, goEntry, goEntry]
      refine (MRel.ex_same _).bind ?_
      rintro is _ rfl
      refine (MRel.forEach (T := PyRel) is fun i _ => ?_).bind fun l l' hl => MRel.pure (.list hl)
      rw [unpack_none, unpack_none, halls]
      exact ih _ _ _
    | cons p rest =>
      rw [List.map_cons]
      cases p with
      | slice a b st =>
        rw [PIdx.lift, goEntry, goEntry]
        refine (MRel.ex_same _).bind ?_
        rintro is _ rfl
        refine (MRel.forEach (T := PyRel) is fun i _ => ?_).bind fun l l' hl => MRel.pure (.list hl)
        rw [unpack_none, unpack_none]
        exact ih _ _ _
      | int i =>
        rw [PIdx.lift, goEntry_int, goEntry_int]
        exact ih _ _ _
      | list l =>
        rw [PIdx.lift, goEntry, goEntry]
        refine (MRel.forEach (T := PyRel) l fun i _ => ?_).bind fun l l' hl => MRel.pure (.list hl)
        cases i with
        | str => exact MRel.throw _
        | int i =>
          rw [unpack_none, unpack_none]
          exact ih _ _ _
      | nesteddict =>
        rw [PIdx.lift, goEntry, goEntry]
        refine (MRel.forEach (T := PyRel) _ fun i _ => ?_).bind fun l l' hl => MRel.pure (.list hl)
        rw [unpack_none, unpack_none]
        exact ih [.nesteddict] _ _
      | fn f => exact f.elim
      | str => rw [PIdx.lift, goEntry, goEntry] <;> first | exact MRel.throw _ | (intros; contradiction)
      | ellipsis => rw [PIdx.lift, goEntry, goEntry] <;> first | exact MRel.throw _ | (intros; contradiction)
      | dict => rw [PIdx.lift, goEntry, goEntry] <;> first | exact MRel.throw _ | (intros; contradiction)
      | set => rw [PIdx.lift, goEntry, goEntry] <;> first | exact MRel.throw _ | (intros; contradiction)
      | indexf => rw [PIdx.lift, goEntry, goEntry] <;> first | exact MRel.throw _ | (intros; contradiction)
      | index => rw [PIdx.lift, goEntry, goEntry] <;> first | exact MRel.throw _ | (intros; contradiction)
      | mat => rw [PIdx.lift, goEntry, goEntry] <;> first | exact MRel.throw _ | (intros; contradiction)

/-- The traversals of the entries, by name. -/
abbrev PTable : List (String × Trav Unit Empty FlatFn PyV) → List (String × Trav Unit Empty Empty (List ℤ)) → Prop :=
  List.Forall₂ fun x y => x.1 = y.1 ∧ PTrav x.2 y.2

theorem PTable.find {l : List (String × Trav Unit Empty FlatFn PyV)} {l' : List (String × Trav Unit Empty Empty (List ℤ))}
    (h : PTable l l') (k : String) :
    (l.reverse.find? (·.1 = k) = none ∧ l'.reverse.find? (·.1 = k) = none) ∨
      ∃ t t', l.reverse.find? (·.1 = k) = some t ∧ l'.reverse.find? (·.1 = k) = some t' ∧ PTrav t.2 t'.2 := by
  have hr : PTable l.reverse l'.reverse := List.rel_reverse h
  revert hr
  generalize l.reverse = r, l'.reverse = r'
  intro hr
  clear h
  induction hr with
  | nil => exact .inl ⟨rfl, rfl⟩
  | @cons x y l l' hxy _ ih =>
    by_cases hk : x.1 = k
    · refine .inr ⟨x, y, ?_, ?_, hxy.2⟩
      · rw [List.find?_cons_of_pos (by simpa using hk)]
      · rw [List.find?_cons_of_pos (by simpa [← hxy.1] using hk)]
    · rw [List.find?_cons_of_neg (by simpa using hk), List.find?_cons_of_neg (by simpa [← hxy.1] using hk)]
      exact ih

theorem goStruct_py (map : List (CIdx × IMat)) (keys : List String) {l : List (String × Trav Unit Empty FlatFn PyV)}
    {l' : List (String × Trav Unit Empty Empty (List ℤ))} (ht : PTable l l') :
    PTrav (goStruct (flatPyDisp map) keys l) (goStruct (flatDisp map) keys l') := by
  have one : ∀ (x : String × Trav Unit Empty FlatFn PyV) (y : String × Trav Unit Empty Empty (List ℤ)) pi inner (c : CIdx),
      x.1 = y.1 ∧ PTrav x.2 y.2 →
      MRel (fun _ _ : Unit => True) (fun (x : String × Tree PyV) y => x.1 = y.1 ∧ PyRel x.2 y.2)
        (M.bind (x.2 (pi.map .lift) inner (c ++ [.str x.1]) .none) fun r => M.pure (x.1, r))
        (M.bind (y.2 pi inner (c ++ [.str y.1]) .none) fun r => M.pure (y.1, r)) := by
    intro x y pi inner c h
    rw [h.1]
    exact (h.2 pi inner _).bind fun r r' hr => MRel.pure ⟨rfl, hr⟩
  intro pi
  induction pi with
  | nil =>
    intro inner c
    rw [List.map_nil, goStruct, goStruct]
    exact call_py map inner c none none
  | cons p rest ih =>
    intro inner c
    rw [List.map_cons]
    cases p with
    | str k =>
      rw [PIdx.lift, goStruct, goStruct]
      rcases ht.find k with ⟨h1, h2⟩ | ⟨t, t', h1, h2, h3⟩
      · simp only [h1, h2]
        exact MRel.throw _
      · simp only [h1, h2]
        exact h3 rest inner _
    | ellipsis =>
      rw [PIdx.lift, goStruct, goStruct]
      refine (MRel.forEach (T := PyRel) _ fun ki _ => ?_).bind fun l l' hl => MRel.pure (.list hl)
      rw [unpack_none, unpack_none]
      rcases ht.find ki.1 with ⟨h1, h2⟩ | ⟨t, t', h1, h2, h3⟩
      · simp only [h1, h2]
        exact MRel.throw _
      · simp only [h1, h2]
        exact h3 rest inner _
    | dict =>
      rw [PIdx.lift, goStruct, goStruct]
      · exact (MRel.forEach₂ ht fun x y h => one x y rest inner c h).bind fun l l' hl => MRel.pure (.dict hl)
      all_goals (intros; contradiction)
    | nesteddict =>
      rw [PIdx.lift, goStruct, goStruct]
      · exact (MRel.forEach₂ ht fun x y h => one x y [.nesteddict] inner c h).bind fun l l' hl => MRel.pure (.dict hl)
      all_goals (intros; contradiction)
    | set ks =>
      rw [PIdx.lift, goStruct, goStruct]
      · refine (MRel.forEach (T := fun (x : String × Tree PyV) y => x.1 = y.1 ∧ PyRel x.2 y.2) ks fun k _ => ?_).bind
          fun l l' hl => MRel.pure (.dict hl)
        rcases ht.find k with ⟨h1, h2⟩ | ⟨t, t', h1, h2, h3⟩
        · simp only [h1, h2]
          exact MRel.throw _
        · simp only [h1, h2]
          exact (h3 rest inner _).bind fun r r' hr => MRel.pure ⟨rfl, hr⟩
      all_goals (intros; contradiction)
    | list ks =>
      rw [PIdx.lift, goStruct, goStruct]
      refine (MRel.forEach (T := PyRel) _ fun si _ => ?_).bind fun l l' hl => MRel.pure (.list hl)
      rw [unpack_none, unpack_none]
      exact ih inner _
    | fn f => exact f.elim
    | int => rw [PIdx.lift, goStruct, goStruct] <;> first | exact MRel.throw _ | (intros; contradiction)
    | slice => rw [PIdx.lift, goStruct, goStruct] <;> first | exact MRel.throw _ | (intros; contradiction)
    | indexf => rw [PIdx.lift, goStruct, goStruct] <;> first | exact MRel.throw _ | (intros; contradiction)
    | index => rw [PIdx.lift, goStruct, goStruct] <;> first | exact MRel.throw _ | (intros; contradiction)
    | mat => rw [PIdx.lift, goStruct, goStruct] <;> first | exact MRel.throw _ | (intros; contradiction)

mutual
theorem leafTrav_py (map : List (CIdx × IMat)) :
    ∀ e : Entry, PTrav (Entry.leafTrav (flatPyDisp map) e) (Entry.leafTrav (flatDisp map) e)
  | .prim n ds p => by
    intro pi inner c
    rw [Entry.leafTrav, Entry.leafTrav]
    beta_reduce
    have : (if (pi.map (PIdx.lift (F := FlatFn))).isEmpty then none else some (pi.map PIdx.lift)) =
        (if pi.isEmpty then none else some pi).map fun x => x.map (PIdx.lift (F := FlatFn)) := by cases pi <;> rfl
    rw [this]
    exact call_py map inner c _ _
  | .nested n ds es o => by
    intro pi inner c
    rw [Entry.leafTrav, Entry.leafTrav]
    cases pi with
    | nil => exact call_py map inner c none none
    | cons p rest => exact goStruct_py map _ (travTable_py map es) (p :: rest) inner c
theorem travTable_py (map : List (CIdx × IMat)) :
    ∀ es : List Entry, PTable (travTable (flatPyDisp map) es) (travTable (flatDisp map) es)
  | [] => by rw [travTable, travTable]; exact .nil
  | e :: es => by
    rw [travTable, travTable]
    exact .cons ⟨rfl, goEntry_py map (leafTrav_py map e) e.dims⟩ (travTable_py map es)
end

/-- Without callables `s.f` traverses as modelled in `Trav.lean`. -/
theorem CS.fRaw_lift (c : CS) (pi : List (PIdx Empty)) :
    c.fRaw (pi.map .lift) =
      ((c.struct.traverse (flatDisp (V := Empty) c.map) pi .none ()).1).map (Tree.py PyV.ints) := by
  have h := goStruct_py c.map c.struct.keys (travTable_py c.map c.struct.entries) pi false [] () () trivial
  rw [CS.fRaw, Struct.traverse_fst, Struct.traverse_fst]
  revert h
  generalize goStruct (flatPyDisp (V := Empty) c.map) c.struct.keys _ (pi.map .lift) false [] .none () = x
  generalize goStruct (flatDisp (V := Empty) c.map) c.struct.keys _ pi false [] .none () = y
  rcases x with ⟨x, u⟩
  rcases y with ⟨y, v⟩
  intro h
  cases x <;> cases y
  · rfl
  · exact h.elim
  · exact h.elim
  · exact congrArg Except.ok h.1

/-! ## Below a callable -/

theorem flatPy_inner (map : List (CIdx × IMat)) :
    InnerRel (fun _ _ : Unit => True) (· = ·) (flatPyDisp (V := Empty) map) (flatPyDisp map) where
  list h := by rw [List.forall₂_eq_eq_eq] at h; rw [h]
  dict {l l'} h := by
    have : l = l' := by
      induction h with
      | nil => rfl
      | cons h _ ih => rw [ih, Prod.ext h.1 h.2]
    rw [this]
  call _ _ _ c x e := by
    rintro ⟨⟩ ⟨⟩ _
    simp only [flatPyDisp, ex, M.lift]
    cases (flatCall FlatFn.onIdx map c x e).map PyV.ints with
    | error e => exact ⟨rfl, trivial⟩
    | ok a => exact ⟨rfl, trivial⟩
  outer _ f _ _ c r r' h := by
    subst h
    rintro ⟨⟩ ⟨⟩ _
    simp only [flatPyDisp, ex, M.lift]
    cases (f.onFlat (r.py id)).map Tree.leaf with
    | error e => exact ⟨rfl, trivial⟩
    | ok a => exact ⟨rfl, trivial⟩

end CE.St
