import Verif.Struct.FlatPy
import Verif.Struct.PropsCallable

/-! # C120: `s.f` with dicts and callables -/

namespace CE.St

/-! ## `vec` -/

theorem PyV.ints_append (a b : List ℤ) : (a.map PyV.int) ++ b.map PyV.int = (a ++ b).map PyV.int := by
  rw [List.map_append]

theorem PyV.ints_inj {a b : List ℤ} (h : PyV.ints a = PyV.ints b) : a = b := by
  unfold PyV.ints at h
  injection h with h
  exact List.map_injective_iff.2 (fun x y h => by injection h) h

theorem PyV.map_int_append {a b : List PyV} {l : List ℤ} (h : a ++ b = l.map PyV.int) :
    ∃ u v, a = u.map PyV.int ∧ b = v.map PyV.int ∧ l = u ++ v := by
  obtain ⟨u, v, hl, hu, hv⟩ := List.map_eq_append_iff.1 h.symm
  exact ⟨u, v, hu.symm, hv.symm, hl⟩

theorem PyV.vec_ints (l : List ℤ) : (PyV.ints l).vec = .ok (PyV.ints l) := by
  rw [PyV.ints, PyV.vec, if_neg]
  rw [List.any_map]
  simp [PyV.isList]

theorem PyV.goList_cons {t : PyV} {ts : List PyV} {l : List PyV} :
    PyV.vec.goList (t :: ts) = .ok l ↔ ∃ a b, t.vec = .ok (.list a) ∧ PyV.vec.goList ts = .ok b ∧ l = a ++ b := by
  rw [PyV.vec.goList]
  cases t.vec with
  | error e => simp [Except.bind]
  | ok a =>
    cases PyV.vec.goList ts with
    | error e => simp [Except.bind]
    | ok b =>
      cases a with
      | int i => simp [Except.bind]
      | dict d => simp [Except.bind]
      | list a => simp [Except.bind, PyV.append, eq_comm]

mutual
/-- On results of traversals `vec` returns a list of integers exactly if there is no dict among them. -/
theorem py_vec : ∀ (t : Tree (List ℤ)) (l : List ℤ), (t.py PyV.ints).vec = .ok (PyV.ints l) ↔ t.vec = .ok l
  | .leaf a, l => by
    rw [Tree.py, PyV.vec_ints, Tree.vec]
    constructor
    · intro h
      rw [PyV.ints_inj (Except.ok.inj h)]
    · intro h
      rw [Except.ok.inj h]
  | .dict d, l => by
    rw [Tree.py, PyV.vec, Tree.vec]
    constructor
    · intro h
      cases h
    · intro h
      cases h
  | .list ts, l => by
    rw [Tree.py, PyV.vec, Tree.vec, ← py_vec_list ts l]
    by_cases h : (Tree.py.goList PyV.ints ts).any PyV.isList = true
    · rw [if_pos h]
      cases PyV.vec.goList (Tree.py.goList PyV.ints ts) with
      | error e => simp [Except.map]
      | ok r => simp [Except.map, PyV.ints]
    · rw [if_neg h]
      cases ts with
      | nil =>
        rw [Tree.py.goList, PyV.vec.goList]
        simp [PyV.ints]
      | cons t ts =>
        rw [Tree.py.goList] at h ⊢
        cases t with
        | leaf a => exact absurd rfl h
        | list a => exact absurd rfl h
        | dict d =>
          rw [PyV.goList_cons, Tree.py, PyV.vec]
          constructor
          · intro h
            have := Except.ok.inj h
            unfold PyV.ints at this
            injection this with this
            cases l with
            | nil => cases this
            | cons i l =>
              rw [List.map_cons] at this
              injection this with h1 h2
              cases h1
          · rintro ⟨a, b, h, _⟩
            cases h
theorem py_vec_list : ∀ (ts : List (Tree (List ℤ))) (l : List ℤ),
    PyV.vec.goList (Tree.py.goList PyV.ints ts) = .ok (l.map .int) ↔ Tree.vec.goList ts = .ok l
  | [], l => by
    rw [Tree.py.goList, PyV.vec.goList, Tree.vec.goList]
    constructor
    · intro h
      have := Except.ok.inj h
      rw [List.map_eq_nil_iff.1 this.symm]
    · intro h
      rw [← Except.ok.inj h]
      rfl
  | t :: ts, l => by
    rw [Tree.py.goList, PyV.goList_cons, vec_cons]
    constructor
    · rintro ⟨a, b, h1, h2, h3⟩
      obtain ⟨u, v, rfl, rfl, rfl⟩ := PyV.map_int_append h3.symm
      exact ⟨u, v, (py_vec t u).1 h1, (py_vec_list ts v).1 h2, rfl⟩
    · rintro ⟨a, b, h1, h2, rfl⟩
      exact ⟨_, _, (py_vec t a).2 h1, (py_vec_list ts b).2 h2, List.map_append⟩
end

/-! ## Results without dicts -/

mutual
/-- No dict. -/
inductive NoDict : Tree (List ℤ) → Prop
  | leaf (l) : NoDict (.leaf l)
  | list {ts} : NoDicts ts → NoDict (.list ts)
/-- No dict in a list. -/
inductive NoDicts : List (Tree (List ℤ)) → Prop
  | nil : NoDicts []
  | cons {t ts} : NoDict t → NoDicts ts → NoDicts (t :: ts)
end

mutual
theorem NoDict.vec : ∀ {t : Tree (List ℤ)}, NoDict t → ∃ l, t.vec = .ok l
  | _, .leaf l => ⟨l, by rw [Tree.vec]⟩
  | _, .list h => by
    obtain ⟨l, hl⟩ := NoDicts.vec h
    exact ⟨l, by rw [Tree.vec, hl]⟩
theorem NoDicts.vec : ∀ {ts : List (Tree (List ℤ))}, NoDicts ts → ∃ l, Tree.vec.goList ts = .ok l
  | _, .nil => ⟨[], rfl⟩
  | _, .cons h h' => by
    obtain ⟨a, ha⟩ := NoDict.vec h
    obtain ⟨b, hb⟩ := NoDicts.vec h'
    exact ⟨a ++ b, vec_cons.2 ⟨a, b, ha, hb, rfl⟩⟩
end

/-- A computation whose result, if any, contains no dict. -/
def MNo (x : M Unit (Tree (List ℤ))) : Prop := ∀ t, (x ()).1 = .ok t → NoDict t

theorem MNo.throw (e : PyErr) : MNo (M.throw e) := fun _ h => by cases h

theorem MNo.ex {α : Type} (x : Except PyErr α) {f : α → M Unit (Tree (List ℤ))} (h : ∀ a, MNo (f a)) :
    MNo (M.bind (ex x) f) := by
  cases x with
  | error e => exact MNo.throw e
  | ok a => exact h a

theorem MNo.call (x : M Unit (List ℤ)) : MNo (M.bind x fun r => M.pure (.leaf r)) := by
  intro t h
  obtain ⟨a, _, h⟩ := bind_ok.1 h
  cases h
  exact .leaf a

theorem MNo.list {α : Type} (is : List α) {f : α → M Unit (Tree (List ℤ))} (h : ∀ a ∈ is, MNo (f a)) :
    MNo (M.bind (M.forEach is f) fun r => M.pure (.list r)) := by
  have key : ∀ ts, (M.forEach is f ()).1 = .ok ts → NoDicts ts := by
    induction is with
    | nil =>
      intro ts h
      cases h
      exact .nil
    | cons i is ih =>
      intro ts h1
      obtain ⟨b, bs, hb, hbs, rfl⟩ := forEach_ok.1 h1
      exact .cons (h i List.mem_cons_self b hb) (ih (fun a ha => h a (List.mem_cons_of_mem _ ha)) bs hbs)
  intro t ht
  obtain ⟨ts, h1, h2⟩ := bind_ok.1 ht
  cases h2
  exact .list (key ts h1)

/-- An element of a power index that is not `{}`, `nesteddict` or a set. -/
def PIdx.Plain {F : Type} : PIdx F → Prop
  | .dict => False
  | .nesteddict => False
  | .set _ => False
  | _ => True

/-- Traversals without dicts. -/
abbrev NTrav (t : Trav Unit Empty Empty (List ℤ)) : Prop :=
  ∀ pi inner c, (∀ p ∈ pi, PIdx.Plain p) → MNo (t pi inner c .none)

theorem goEntry_no (map : List (CIdx × IMat)) {leaf : Trav Unit Empty Empty (List ℤ)} (hl : NTrav leaf) (ds : List ℕ) :
    NTrav (goEntry (flatDisp map) leaf ds) := by
  induction ds with
  | nil =>
    intro pi inner c hp
    rw [goEntry_nil]
    exact hl pi inner c hp
  | cons s ds ih =>
    intro pi inner c hp
    cases pi with
    | nil =>
      rw [goEntry]
      refine MNo.ex _ fun is => MNo.list is fun i _ => ?_
      rw [unpack_none]
      refine ih _ _ _ fun p h => ?_
      obtain ⟨_, _, rfl⟩ := List.mem_map.1 h
      exact trivial
    | cons p rest =>
      have hr : ∀ p ∈ rest, PIdx.Plain p := fun q hq => hp q (List.mem_cons_of_mem _ hq)
      cases p with
      | slice a b st =>
        rw [goEntry]
        refine MNo.ex _ fun is => MNo.list is fun i _ => ?_
        rw [unpack_none]
        exact ih _ _ _ hr
      | int i =>
        rw [goEntry_int]
        exact ih _ _ _ hr
      | list l =>
        rw [goEntry]
        refine MNo.list l fun i _ => ?_
        cases i with
        | str => exact MNo.throw _
        | int i =>
          rw [unpack_none]
          exact ih _ _ _ hr
      | nesteddict => exact (hp _ List.mem_cons_self).elim
      | fn f => exact f.elim
      | str => rw [goEntry] <;> first | exact MNo.throw _ | (intros; contradiction)
      | ellipsis => rw [goEntry] <;> first | exact MNo.throw _ | (intros; contradiction)
      | dict => exact (hp _ List.mem_cons_self).elim
      | set => exact (hp _ List.mem_cons_self).elim
      | indexf => rw [goEntry] <;> first | exact MNo.throw _ | (intros; contradiction)
      | index => rw [goEntry] <;> first | exact MNo.throw _ | (intros; contradiction)
      | mat => rw [goEntry] <;> first | exact MNo.throw _ | (intros; contradiction)

theorem goStruct_no (map : List (CIdx × IMat)) (keys : List String) {l : List (String × Trav Unit Empty Empty (List ℤ))}
    (ht : ∀ x ∈ l, NTrav x.2) : NTrav (goStruct (flatDisp map) keys l) := by
  have find : ∀ k : String, l.reverse.find? (·.1 = k) = none ∨ ∃ t, l.reverse.find? (·.1 = k) = some t ∧ NTrav t.2 := by
    intro k
    cases h : l.reverse.find? (·.1 = k) with
    | none => exact .inl rfl
    | some t => exact .inr ⟨t, rfl, ht t (List.mem_reverse.1 (List.mem_of_find?_eq_some h))⟩
  intro pi
  induction pi with
  | nil =>
    intro inner c _
    rw [goStruct]
    exact MNo.call _
  | cons p rest ih =>
    intro inner c hp
    have hr : ∀ p ∈ rest, PIdx.Plain p := fun q hq => hp q (List.mem_cons_of_mem _ hq)
    cases p with
    | str k =>
      rw [goStruct]
      rcases find k with h | ⟨t, h, h'⟩
      · simp only [h]
        exact MNo.throw _
      · simp only [h]
        exact h' rest inner _ hr
    | ellipsis =>
      rw [goStruct]
      refine MNo.list _ fun ki _ => ?_
      rw [unpack_none]
      rcases find ki.1 with h | ⟨t, h, h'⟩
      · simp only [h]
        exact MNo.throw _
      · simp only [h]
        exact h' rest inner _ hr
    | dict => exact (hp _ List.mem_cons_self).elim
    | nesteddict => exact (hp _ List.mem_cons_self).elim
    | set ks => exact (hp _ List.mem_cons_self).elim
    | list ks =>
      rw [goStruct]
      refine MNo.list _ fun si _ => ?_
      rw [unpack_none]
      exact ih inner _ hr
    | fn f => exact f.elim
    | int => rw [goStruct] <;> first | exact MNo.throw _ | (intros; contradiction)
    | slice => rw [goStruct] <;> first | exact MNo.throw _ | (intros; contradiction)
    | indexf => rw [goStruct] <;> first | exact MNo.throw _ | (intros; contradiction)
    | index => rw [goStruct] <;> first | exact MNo.throw _ | (intros; contradiction)
    | mat => rw [goStruct] <;> first | exact MNo.throw _ | (intros; contradiction)

mutual
theorem leafTrav_no (map : List (CIdx × IMat)) : ∀ e : Entry, NTrav (Entry.leafTrav (flatDisp map) e)
  | .prim n ds p => by
    intro pi inner c _
    rw [Entry.leafTrav]
    exact MNo.call _
  | .nested n ds es o => by
    intro pi inner c hp
    rw [Entry.leafTrav]
    cases pi with
    | nil => exact MNo.call _
    | cons p rest => exact goStruct_no map _ (travTable_no map es) (p :: rest) inner c hp
theorem travTable_no (map : List (CIdx × IMat)) : ∀ es : List Entry, ∀ x ∈ travTable (flatDisp map) es, NTrav x.2
  | [] => by intro x hx; rw [travTable] at hx; cases hx
  | e :: es => by
    intro x hx
    rw [travTable] at hx
    rcases List.mem_cons.1 hx with rfl | hx
    · exact goEntry_no map (leafTrav_no map e) e.dims
    · exact travTable_no map es x hx
end

/-! ## The property -/

variable {V : Type}

/-- **C120**: for every struct and every power index without callables, `s.f[index]` is the list of integers `l` exactly if
`s.i[index]` is a nested list of dense index matrices and `l` lists their elements in order. -/
theorem C120_flat (c : CS) (pi : List (PIdx Empty)) (l : List ℤ) :
    c.fPy (pi.map .lift) = .ok (.ints l) ↔ ∃ t, c.i (V := V) (pi.map .lift) = .ok t ∧ Flat t l := by
  rw [← C68_flat, CS.fPy, CS.fRaw_lift, CS.f]
  cases (c.struct.traverse (flatDisp (V := Empty) c.map) pi .none ()).1 with
  | error e => simp [Except.map, Except.bind]
  | ok t => exact py_vec t l

/-- **C120**: `s.f[index]` returns a list of integers or raises, for every power index without callables, `{}`, `nesteddict` and sets.
Missing for the full claim: indices with `{}`, `nesteddict` or a set, for which it is false (`C120_dict`, `C120_set`,
`C120_refuted`). -/
theorem C120_flat_partial (c : CS) (pi : List (PIdx Empty)) (hp : ∀ p ∈ pi, p ≠ .dict ∧ p ≠ .nesteddict ∧ ∀ ks, p ≠ .set ks)
    (v : PyV) (h : c.fPy (pi.map .lift) = .ok v) : ∃ l, v = .ints l := by
  have hp' : ∀ p ∈ pi, PIdx.Plain p := by
    intro p hm
    obtain ⟨h1, h2, h3⟩ := hp p hm
    cases p with
    | dict => exact absurd rfl h1
    | nesteddict => exact absurd rfl h2
    | set ks => exact absurd rfl (h3 ks)
    | _ => trivial
  rw [CS.fPy, CS.fRaw_lift, Struct.traverse_fst] at h
  have hn := goStruct_no c.map c.struct.keys (travTable_no c.map c.struct.entries) pi false [] hp'
  revert h
  simp only
  cases hg : (goStruct (flatDisp (V := Empty) c.map) c.struct.keys (travTable (flatDisp c.map) c.struct.entries) pi false []
      .none ()).1 with
  | error e => intro h; cases h
  | ok t =>
    intro h
    obtain ⟨l, hl⟩ := (hn t hg).vec
    have := (py_vec t l).2 hl
    exact ⟨l, Except.ok.inj (h.symm.trans this)⟩

theorem forEach_all {α β : Type} {l : List α} {f : α → M Unit β} {r : List β} :
    (M.forEach l f ()).1 = .ok r ↔ List.Forall₂ (fun a b => (f a ()).1 = .ok b) l r := by
  induction l generalizing r with
  | nil =>
    constructor
    · intro h; cases h; exact .nil
    · intro h; cases h; rfl
  | cons a l ih =>
    rw [forEach_ok]
    constructor
    · rintro ⟨b, bs, h1, h2, rfl⟩
      exact .cons h1 (ih.1 h2)
    · intro h
      cases h with
      | cons h1 h2 => exact ⟨_, _, h1, ih.2 h2, rfl⟩

theorem CS.fRaw_eq (c : CS) (pi : List (PIdx FlatFn)) (v : PyV) : c.fRaw pi = .ok v ↔
    ∃ t, (goStruct (flatPyDisp (V := Empty) c.map) c.struct.keys (travTable (flatPyDisp c.map) c.struct.entries) pi false [] .none
      ()).1 = .ok t ∧ t.py id = v := by
  rw [CS.fRaw, Struct.traverse_fst]
  simp only
  cases (goStruct (flatPyDisp (V := Empty) c.map) c.struct.keys (travTable (flatPyDisp c.map) c.struct.entries) pi false [] .none
      ()).1 with
  | error e => simp [gen, Except.map]
  | ok t => simp [gen, Except.map]

theorem fPy_names (c : CS) (rest : List (PIdx FlatFn)) (ks : List String) (p : PIdx FlatFn) (v : PyV)
    (hg : goStruct (flatPyDisp (V := Empty) c.map) c.struct.keys (travTable (flatPyDisp c.map) c.struct.entries) (p :: rest) false []
        .none =
      M.bind (M.forEach ks fun k => M.bind (goStruct (flatPyDisp (V := Empty) c.map) c.struct.keys
        (travTable (flatPyDisp c.map) c.struct.entries) (.str k :: rest) false [] .none) fun r => M.pure (k, r))
        fun r => M.pure (.dict r)) :
    c.fPy (p :: rest) = .ok v ↔ ∃ kvs, v = .dict kvs ∧
      List.Forall₂ (fun k kv => kv.1 = k ∧ c.fRaw (.str k :: rest) = .ok kv.2) ks kvs := by
  have key : ∀ w, c.fRaw (p :: rest) = .ok w ↔ ∃ kvs, w = .dict kvs ∧
      List.Forall₂ (fun k kv => kv.1 = k ∧ c.fRaw (.str k :: rest) = .ok kv.2) ks kvs := by
    intro w
    rw [CS.fRaw_eq, hg]
    clear hg
    simp only [bind_ok, forEach_all]
    constructor
    · rintro ⟨t, ⟨r, hr, h1⟩, h2⟩
      cases h1
      rw [Tree.py, py_goDict] at h2
      refine ⟨_, h2.symm, ?_⟩
      clear h2
      induction hr with
      | nil => exact .nil
      | cons h _ ih =>
        obtain ⟨a, ha, hb⟩ := h
        cases hb
        exact .cons ⟨rfl, (c.fRaw_eq _ _).2 ⟨a, ha, rfl⟩⟩ ih
    · rintro ⟨kvs, rfl, h⟩
      have : ∃ r : List (String × Tree PyV), List.Forall₂ (fun k (b : String × Tree PyV) => ∃ a, (goStruct (flatPyDisp (V := Empty)
          c.map) c.struct.keys (travTable (flatPyDisp c.map) c.struct.entries) (.str k :: rest) false [] .none ()).1 = .ok a ∧
          (M.pure (k, a) () : Except PyErr (String × Tree PyV) × Unit).1 = .ok b) ks r ∧
          r.map (fun x => (x.1, x.2.py id)) = kvs := by
        induction h with
        | nil => exact ⟨[], .nil, rfl⟩
        | @cons k kv _ _ h _ ih =>
          obtain ⟨r, h1, h2⟩ := ih
          obtain ⟨a, ha, hb⟩ := (c.fRaw_eq _ _).1 h.2
          refine ⟨(k, a) :: r, .cons ⟨a, ha, rfl⟩ h1, ?_⟩
          rw [List.map_cons, h2, hb, ← h.1]
      obtain ⟨r, h1, h2⟩ := this
      refine ⟨.dict r, ⟨r, h1, rfl⟩, ?_⟩
      rw [Tree.py, py_goDict, h2]
  rw [CS.fPy]
  constructor
  · intro h
    cases hw : c.fRaw (p :: rest) with
    | error e => rw [hw] at h; cases h
    | ok w =>
      obtain ⟨kvs, rfl, hk⟩ := (key w).1 hw
      rw [hw] at h
      exact ⟨kvs, by simpa [Except.bind, PyV.vec] using h.symm, hk⟩
  · rintro ⟨kvs, rfl, hk⟩
    rw [(key _).2 ⟨kvs, rfl, hk⟩]
    simp [Except.bind, PyV.vec]

/-- **C120**: `s.f[{}, rest]` is a dict with the names of the entries, in order of definition, as keys; the values are those of the
traversals for the names, to which `vec` is not applied. -/
theorem C120_dict (c : CS) (hwf : WFs c.struct.entries c.struct.order) (rest : List (PIdx FlatFn)) (v : PyV) :
    c.fPy (.dict :: rest) = .ok v ↔ ∃ kvs, v = .dict kvs ∧
      List.Forall₂ (fun k kv => kv.1 = k ∧ c.fRaw (.str k :: rest) = .ok kv.2) (c.struct.entries.map Entry.name) kvs := by
  apply fPy_names
  rw [goStruct_dict _ _ hwf.nodup _ _ _ _ (fun _ h => by cases h), M.forEach_map]

/-- **C120**: the same for a set of names, in the order in which Python goes through the set. -/
theorem C120_set (c : CS) (ks : List String) (rest : List (PIdx FlatFn)) (v : PyV) :
    c.fPy (.set ks :: rest) = .ok v ↔ ∃ kvs, v = .dict kvs ∧
      List.Forall₂ (fun k kv => kv.1 = k ∧ c.fRaw (.str k :: rest) = .ok kv.2) ks kvs := by
  apply fPy_names
  rw [goStruct_set _ _ _ _ _ _ _ _ (fun _ h => by cases h)]

/-- **C120**: a callable at the beginning of an index gets the result for the rest of the index before it is flattened, and `vec` is
applied to its value. -/
theorem C120_callable (c : CS) (f : FlatFn) (rest : List (PIdx FlatFn)) :
    c.fRaw (.fn f :: rest) = ((c.fRaw rest).bind f.onFlat).mapError fun _ => .generic := by
  have h := goStruct_in (flatPy_inner c.map) c.struct.keys (travTable_in (flatPy_inner c.map) c.struct.entries) rest false []
    .none .none (.inl rfl) (.inl rfl) () () trivial
  rw [CS.fRaw, CS.fRaw, Struct.traverse_fst, Struct.traverse_fst, goStruct]
  simp only [M.bind]
  revert h
  generalize goStruct (flatPyDisp (V := Empty) c.map) c.struct.keys _ rest true [] .none () = x
  generalize goStruct (flatPyDisp (V := Empty) c.map) c.struct.keys _ rest false [] .none () = y
  rcases x with ⟨x, u⟩
  rcases y with ⟨y, w⟩
  intro h
  cases x <;> cases y
  · rfl
  · exact h.elim
  · exact h.elim
  · rw [h.1]
    rename_i t
    simp only [flatPyDisp, ex, M.lift, gen, Except.map, Except.bind]
    cases f.onFlat (t.py id) <;> rfl

/-! ### Examples -/

theorem groupStruct_raw : ∃ c, CS.ofStruct groupStruct = .ok c ∧ c.struct = groupStruct ∧
    c.fRaw [.str "a"] = .ok (.list [.ints [0], .ints [2]]) ∧ c.fRaw [.str "b"] = .ok (.list [.ints [1], .ints [3]]) := by
  obtain ⟨c, ls, h1, h2, hb⟩ := ofStruct_built groupStruct_wf
  have hwf' : WFs c.struct.entries c.struct.order := by rw [h2]; exact groupStruct_wf
  have htops : tops c.struct.entries c.struct.order = [[.str "a", .int 0], [.str "b", .int 0], [.str "a", .int 1],
      [.str "b", .int 1]] := by rw [h2]; decide
  have hea : Entry.prim "a" [2] ⟨.dense 1 1, false, none, none⟩ ∈ c.struct.entries := by rw [h2]; exact List.mem_cons_self
  have heb : Entry.prim "b" [2] ⟨.dense 1 1, false, none, none⟩ ∈ c.struct.entries := by
    rw [h2]; exact List.mem_cons_of_mem _ List.mem_cons_self
  have hd : ∀ i : ℕ, i < 2 → InDims [.int i] [2] := fun i hi => .cons ⟨i, hi, rfl⟩ .nil
  have g1 : dictGet c.map [.str "a", .int 0] = some ⟨.dense 1 1, [0]⟩ := by
    refine (hb.top_pos hwf' hea (hd 0 (by decide)) (A := []) (B := _) htops).trans ?_
    simp only [h2]
    rfl
  have g2 : dictGet c.map [.str "b", .int 0] = some ⟨.dense 1 1, [1]⟩ := by
    refine (hb.top_pos hwf' heb (hd 0 (by decide)) (A := [[.str "a", .int 0]]) (B := _) htops).trans ?_
    simp only [h2]
    rfl
  have g3 : dictGet c.map [.str "a", .int 1] = some ⟨.dense 1 1, [2]⟩ := by
    refine (hb.top_pos hwf' hea (hd 1 (by decide)) (A := [[.str "a", .int 0], [.str "b", .int 0]]) (B := _) htops).trans ?_
    simp only [h2]
    rfl
  have g4 : dictGet c.map [.str "b", .int 1] = some ⟨.dense 1 1, [3]⟩ := by
    refine (hb.top_pos hwf' heb (hd 1 (by decide)) (A := [[.str "a", .int 0], [.str "b", .int 0], [.str "a", .int 1]])
      (B := _) htops).trans ?_
    simp only [h2]
    rfl
  have his : ∀ is, List.Forall₂ (· < ·) is [2] → is = [0] ∨ is = [1] := by
    intro is his
    have := mem_tuples.2 his
    simpa [tuples, List.range, List.range.loop] using this
  refine ⟨c, h1, h2, ?_, ?_⟩
  · rw [CS.fRaw, Struct.traverse_fst, show "a" = (Entry.prim "a" [2] ⟨.dense 1 1, false, none, none⟩).name from rfl,
      goStruct_entry _ _ hwf'.nodup hea]
    have : goEntry (flatPyDisp (V := Empty) c.map) (Entry.leafTrav (flatPyDisp c.map)
        (Entry.prim "a" [2] ⟨.dense 1 1, false, none, none⟩)) [2] [] false [.str "a"] .none = M.pure (nest [2] fun is =>
          PyV.ints [if is = [0] then 0 else 2]) := by
      refine goEntry_pure _ _ _ _ _ _ fun is h => ?_
      rw [Entry.leafTrav]
      rcases his is h with rfl | rfl
      · show M.bind (ex (Except.map _ (flatCall _ c.map [.str "a", .int 0] none _))) _ = _
        rw [flatCall, g1]
        rfl
      · show M.bind (ex (Except.map _ (flatCall _ c.map [.str "a", .int 1] none _))) _ = _
        rw [flatCall, g3]
        rfl
    erw [this]
    rfl
  · rw [CS.fRaw, Struct.traverse_fst, show "b" = (Entry.prim "b" [2] ⟨.dense 1 1, false, none, none⟩).name from rfl,
      goStruct_entry _ _ hwf'.nodup heb]
    have : goEntry (flatPyDisp (V := Empty) c.map) (Entry.leafTrav (flatPyDisp c.map)
        (Entry.prim "b" [2] ⟨.dense 1 1, false, none, none⟩)) [2] [] false [.str "b"] .none = M.pure (nest [2] fun is =>
          PyV.ints [if is = [0] then 1 else 3]) := by
      refine goEntry_pure _ _ _ _ _ _ fun is h => ?_
      rw [Entry.leafTrav]
      rcases his is h with rfl | rfl
      · show M.bind (ex (Except.map _ (flatCall _ c.map [.str "b", .int 0] none _))) _ = _
        rw [flatCall, g2]
        rfl
      · show M.bind (ex (Except.map _ (flatCall _ c.map [.str "b", .int 1] none _))) _ = _
        rw [flatCall, g4]
        rfl
    erw [this]
    rfl

/-- **C120**: the claim that `s.f[index]` is always a list of integers is false of the code: `s.f[{}]` is a dict, and its values are
nested lists although `s.f["a"]` is a list of integers. -/
theorem C120_refuted : ∃ (s : Struct) (c : CS), WFs s.entries s.order ∧ CS.ofStruct s = .ok c ∧
    c.fPy [.dict] = .ok (.dict [("a", .list [.ints [0], .ints [2]]), ("b", .list [.ints [1], .ints [3]])]) ∧
    c.fPy [.str "a"] = .ok (.ints [0, 2]) := by
  obtain ⟨c, h1, h2, ha, hb⟩ := groupStruct_raw
  refine ⟨_, c, groupStruct_wf, h1, ?_, ?_⟩
  · refine (C120_dict c (by rw [h2]; exact groupStruct_wf) [] _).2 ⟨_, rfl, ?_⟩
    rw [h2]
    exact .cons ⟨rfl, ha⟩ (.cons ⟨rfl, hb⟩ .nil)
  · rw [CS.fPy, ha]
    rfl

-- `vec`: dicts are left alone, a list of dicts too; TypeError for a list with a list and a dict
example : PyV.vec (.list [.dict [("a", .ints [0])], .dict []]) = .ok (.list [.dict [("a", .ints [0])], .dict []]) ∧
    PyV.vec (.list [.ints [1], .dict []]) = .error .type ∧ PyV.vec (.list [.list [.ints [1, 2]], .ints [3]]) = .ok (.ints [1, 2, 3]) ∧
    PyV.vec (.list [.list [.dict []], .ints [3]]) = .ok (.list [.dict [], .int 3]) :=
  ⟨rfl, rfl, rfl, rfl⟩

/-- A callable that returns the first element of a list. -/
def headFn : FlatFn where
  onIdx _ := .error .type
  onFlat
    | .list (a :: _) => .ok a
    | _ => .error .type

-- `s.f[head, "a"]` is the first repetition, `[0]`, not the first number: the callable gets `[[0], [2]]`
example : ∃ c, CS.ofStruct groupStruct = .ok c ∧ c.fPy [.fn headFn, .str "a"] = .ok (.ints [0]) := by
  obtain ⟨c, h1, _, ha, _⟩ := groupStruct_raw
  refine ⟨c, h1, ?_⟩
  rw [CS.fPy, C120_callable, ha]
  rfl

-- two callables: the second value is an integer, and `vec` raises TypeError
example : ∃ c, CS.ofStruct groupStruct = .ok c ∧ c.fPy [.fn headFn, .fn headFn, .str "a"] = .error .type := by
  obtain ⟨c, h1, _, ha, _⟩ := groupStruct_raw
  refine ⟨c, h1, ?_⟩
  rw [CS.fPy, C120_callable, C120_callable, ha]
  rfl

/-- C68, C120 for the struct with `a` and `b` alternating: `s.f['b']`, `s.f[{}]` and `s.f[{'b'}]`. -/
example : ∃ c, CS.ofStruct groupStruct = .ok c ∧
    c.fPy [.dict] = .ok (.dict [("a", .list [.ints [0], .ints [2]]), ("b", .list [.ints [1], .ints [3]])]) ∧
    c.fPy [.set ["b"]] = .ok (.dict [("b", .list [.ints [1], .ints [3]])]) ∧
    (∀ v, c.fPy [.str "b", .int 1] = .ok v → ∃ l, v = .ints l) ∧ (∀ l, c.f [.str "b", .int 1] = .ok l → ∀ k ∈ l, 0 ≤ k ∧ k < 4) ∧
    ∀ l, (c.fPy [.str "b"] = .ok (.ints l) ↔ c.f [.str "b"] = .ok l) := by
  obtain ⟨c, h1, h2, ha, hb⟩ := groupStruct_raw
  obtain ⟨c', h1', h3, -⟩ := C68_group
  rw [h1] at h1'
  cases h1'
  refine ⟨c, h1, ?_, ?_, ?_, ?_, fun l => ?_⟩
  · refine (C120_dict c (by rw [h2]; exact groupStruct_wf) [] _).2 ⟨_, rfl, ?_⟩
    rw [h2]
    exact .cons ⟨rfl, ha⟩ (.cons ⟨rfl, hb⟩ .nil)
  · exact (C120_set c ["b"] [] _).2 ⟨_, rfl, .cons ⟨rfl, hb⟩ .nil⟩
  · exact C120_flat_partial c [.str "b", .int 1] (by
      intro p hp
      simp only [List.mem_cons, List.not_mem_nil, or_false] at hp
      rcases hp with rfl | rfl <;> exact ⟨by rintro ⟨⟩, by rintro ⟨⟩, by rintro ks ⟨⟩⟩)
  · intro l hl
    have := C68_range groupStruct groupStruct_wf c h1 _ l hl
    rw [h3] at this
    exact this
  · exact (C120_flat (V := ℚ) c [.str "b"] l).trans (C68_flat (V := ℚ) c [.str "b"] l).symm

end CE.St
