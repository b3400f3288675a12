import Verif.Struct.Pickle
import Verif.Struct.PropsObj
import Verif.Struct.PropsDefine

/-! # Pickling (C56) -/

namespace CE.St

variable {V : Type}

/-! ## Entries without `originalsparsity` -/

theorem stripAll_eq (es : List Entry) : stripAll es = es.map Entry.strip := by
  induction es with
  | nil => rfl
  | cons e es ih => rw [stripAll, ih, List.map_cons]

theorem Entry.strip_name (e : Entry) : e.strip.name = e.name := by
  cases e <;> rfl

theorem Entry.strip_dims (e : Entry) : e.strip.dims = e.dims := by
  cases e <;> rfl

theorem Entry.strip_sparsity (e : Entry) : e.strip.sparsity = e.sparsity := by
  cases e <;> rfl

mutual
theorem Entry.strip_children : ∀ (e : Entry) (l : ℤ), e.strip.children l = e.children l
  | .prim .., l => rfl
  | .nested n d es o, l => by
    rw [Entry.strip, Entry.children, Entry.children, stripAll_children es]
theorem stripAll_children : ∀ (es : List Entry) (l : ℤ), childTable l (stripAll es) = childTable l es
  | [], l => rfl
  | e :: es, l => by
    rw [stripAll, childTable, childTable, Entry.strip_name, Entry.strip_dims, Entry.strip_children e, stripAll_children es]
end

theorem dictEntry_strip (es : List Entry) (n : String) : dictEntry (stripAll es) n = (dictEntry es n).map Entry.strip := by
  rw [dictEntry, dictEntry, stripAll_eq, ← List.map_reverse, List.find?_map]
  have : ((fun e : Entry => decide (e.name = n)) ∘ Entry.strip) = fun e => decide (e.name = n) := by
    funext e
    simp only [Function.comp, Entry.strip_name]
  rw [this]

theorem entryByPath_strip (path : List String) : ∀ es, entryByPath (stripAll es) path = (entryByPath es path).map Entry.strip := by
  induction path with
  | nil => intro es; rw [entryByPath, entryByPath]; rfl
  | cons n path ih =>
    intro es
    rw [entryByPath, entryByPath, dictEntry_strip]
    cases dictEntry es n with
    | none => rfl
    | some e =>
      simp only [Option.map_some]
      by_cases h : path = []
      · rw [if_pos h, if_pos h]; rfl
      · rw [if_neg h, if_neg h]
        cases e with
        | prim => rfl
        | nested n d es' o => exact ih es'

theorem Build.run_strip (es : List Entry) (o : List OrderItem) : ∀ (l : List CIdx) (b : Build),
    Build.run ⟨stripAll es, o⟩ l b = Build.run ⟨es, o⟩ l b := by
  intro l
  induction l with
  | nil => intro b; rfl
  | cons i l ih =>
    intro b
    rw [Build.run, Build.run, Struct.entryByCanonical, Struct.entryByCanonical, entryByPath_strip]
    cases entryByPath es (strings i) with
    | error e => rfl
    | ok e =>
      show Build.run _ l (b.step i e.strip.sparsity) = Build.run _ l (b.step i e.sparsity)
      rw [Entry.strip_sparsity, ih]

/-- The layout of the unpickled struct. -/
theorem CS.ofStruct_strip (s : Struct) : CS.ofStruct ⟨stripAll s.entries, s.order⟩ =
    (CS.ofStruct s).map fun c => { c with struct := ⟨stripAll s.entries, s.order⟩ } := by
  rw [CS.ofStruct, CS.ofStruct, Build.run_strip, Struct.traverseCanonicalIndex, Struct.traverseCanonicalIndex, stripAll_children]
  cases Build.run s (structCan s.order (childTable (1000 - 1) s.entries)) {} <;> rfl

theorem Struct.new_strip {es : List Entry} {o : List OrderItem} (h : WFs es o) :
    Struct.new (stripAll es) (some o) = .ok ⟨stripAll es, o⟩ := by
  rw [Struct.new]
  simp only [Option.getD_some]
  rw [if_pos]
  simp only [List.all_eq_true]
  intro x hx n hn
  have : n ∈ es.map Entry.name := h.perm.subset (List.mem_flatMap.2 ⟨x, hx, hn⟩)
  obtain ⟨e, he, rfl⟩ := List.mem_map.1 this
  rw [dictEntry_strip, dictEntry_of_mem h.nodup he]
  rfl

section
variable {σ F R : Type}

mutual
theorem leafTrav_strip {d : Disp σ V F R} (h : ∀ i pay c x p, d.call i pay c x (some p.strip) = d.call i pay c x (some p)) :
    ∀ e : Entry, Entry.leafTrav d e.strip = Entry.leafTrav d e
  | .prim n ds p => by
    rw [Entry.strip, Entry.leafTrav, Entry.leafTrav]
    funext pi inner c pay
    rw [h]
  | .nested n ds es o => by
    rw [Entry.strip]
    funext pi inner c pay
    rw [Entry.leafTrav, Entry.leafTrav, travTable_strip h es]
theorem travTable_strip {d : Disp σ V F R} (h : ∀ i pay c x p, d.call i pay c x (some p.strip) = d.call i pay c x (some p)) :
    ∀ es : List Entry, travTable d (stripAll es) = travTable d es
  | [] => by rw [stripAll]
  | e :: es => by
    rw [stripAll, travTable, travTable, Entry.strip_name, Entry.strip_dims, leafTrav_strip h e, travTable_strip h es]
end

end

theorem delegation_strip {F : Type} (x : PIdx F) (p : Prim) (k : ℕ) : delegation x (some p.strip) k = delegation x (some p) k := by
  cases x <;> rfl

theorem performExtraIndex_strip {F : Type} (g : F → Tree IMat → Except PyErr IMat) (i : IMat) (p : Prim) (b : Bool)
    (x : List (PIdx F)) : performExtraIndex g i (some p.strip) b x = performExtraIndex g i (some p) b x := by
  fun_induction performExtraIndex g i (some p) b x with
  | case1 => rw [performExtraIndex]
  | case2 f rest ih => rw [performExtraIndex, ih]
  | case3 => rw [performExtraIndex]
  | case4 a h1 h2 => rw [performExtraIndex, delegation_strip] <;> assumption
  | case5 a b h1 h2 => rw [performExtraIndex, delegation_strip, delegation_strip] <;> assumption
  | case6 => rw [performExtraIndex] <;> assumption

variable [Zero V] [Add V] [Sub V]

/-- Reading does not need `originalsparsity`. -/
theorem getitem_strip (s : Struct) (c : CS) (hs : c.struct = s) (master : List V) (pi : List (PIdx (PyFn V))) :
    (⟨{ c with struct := ⟨stripAll s.entries, s.order⟩ }, master, []⟩ : Obj V).getitem pi =
      (⟨c, master, []⟩ : Obj V).getitem pi := by
  rw [Obj.getitem, Obj.getitem, Struct.traverse_fst, Struct.traverse_fst]
  simp only
  rw [travTable_strip, hs]
  · rfl
  · intro i pay c x p
    simp only [getDisp, getCall, performExtraIndex_strip]
    rfl

/-! ## What is written -/

mutual
/-- The identities of a struct and of all structs inside it. -/
def PStruct.ids : PStruct → List ℕ
  | .mk i es _ => i :: idsEntries es
/-- The identities of the structs of an entry. -/
def PEntry.ids : PEntry → List ℕ
  | .prim _ _ _ ss => idsStructs ss
  | .nested _ _ s => s.ids
/-- The identities of the structs of entries. -/
def idsEntries : List PEntry → List ℕ
  | [] => []
  | e :: es => e.ids ++ idsEntries es
/-- The identities of structs. -/
def idsStructs : List PStruct → List ℕ
  | [] => []
  | s :: ss => s.ids ++ idsStructs ss
end

section
omit [Zero V] [Add V] [Sub V]

variable {α : Type}

theorem memo_snoc {memo : MemoOf α} {k i : ℕ} {x y : Option (α)} (h : dictGet memo k = some x) :
    dictGet (memo ++ [(i, y)]) k = some x := by
  rw [dictGet_append, h]; rfl

mutual
theorem PStruct.dump_mono (init : List (ℕ × α)) {k : ℕ} {x} : ∀ (s : PStruct) (memo : MemoOf α),
    dictGet memo k = some x → dictGet (s.dump init memo) k = some x
  | .mk i es o, memo, h => by
    rw [PStruct.dump]
    split
    · exact h
    · exact dumpEntries_mono init es _ (memo_snoc h)
theorem PEntry.dump_mono (init : List (ℕ × α)) {k : ℕ} {x} : ∀ (e : PEntry) (memo : MemoOf α),
    dictGet memo k = some x → dictGet (e.dump init memo) k = some x
  | .prim _ _ _ ss, memo, h => by rw [PEntry.dump]; exact dumpStructs_mono init ss memo h
  | .nested _ _ s, memo, h => by rw [PEntry.dump]; exact s.dump_mono init memo h
theorem dumpEntries_mono (init : List (ℕ × α)) {k : ℕ} {x} : ∀ (es : List PEntry) (memo : MemoOf α),
    dictGet memo k = some x → dictGet (dumpEntries init es memo) k = some x
  | [], memo, h => by rw [dumpEntries]; exact h
  | e :: es, memo, h => by rw [dumpEntries]; exact dumpEntries_mono init es _ (e.dump_mono init memo h)
theorem dumpStructs_mono (init : List (ℕ × α)) {k : ℕ} {x} : ∀ (ss : List PStruct) (memo : MemoOf α),
    dictGet memo k = some x → dictGet (dumpStructs init ss memo) k = some x
  | [], memo, h => by rw [dumpStructs]; exact h
  | s :: ss, memo, h => by rw [dumpStructs]; exact dumpStructs_mono init ss _ (s.dump_mono init memo h)
end

mutual
theorem PStruct.dump_notin (init : List (ℕ × α)) {k : ℕ} : ∀ (s : PStruct) (memo : MemoOf α), k ∉ s.ids →
    dictGet (s.dump init memo) k = dictGet memo k
  | .mk i es o, memo, h => by
    rw [PStruct.ids, List.mem_cons, not_or] at h
    rw [PStruct.dump]
    split
    · rfl
    · rw [dumpEntries_notin init es _ h.2, dictGet_append, dictGet_cons, if_neg (fun e => h.1 e.symm), dictGet_nil, Option.or_none]
theorem PEntry.dump_notin (init : List (ℕ × α)) {k : ℕ} : ∀ (e : PEntry) (memo : MemoOf α), k ∉ e.ids →
    dictGet (e.dump init memo) k = dictGet memo k
  | .prim _ _ _ ss, memo, h => by rw [PEntry.ids] at h; rw [PEntry.dump]; exact dumpStructs_notin init ss memo h
  | .nested _ _ s, memo, h => by rw [PEntry.ids] at h; rw [PEntry.dump]; exact s.dump_notin init memo h
theorem dumpEntries_notin (init : List (ℕ × α)) {k : ℕ} : ∀ (es : List PEntry) (memo : MemoOf α), k ∉ idsEntries es →
    dictGet (dumpEntries init es memo) k = dictGet memo k
  | [], memo, h => by rw [dumpEntries]
  | e :: es, memo, h => by
    rw [idsEntries, List.mem_append, not_or] at h
    rw [dumpEntries, dumpEntries_notin init es _ h.2, e.dump_notin init memo h.1]
theorem dumpStructs_notin (init : List (ℕ × α)) {k : ℕ} : ∀ (ss : List PStruct) (memo : MemoOf α), k ∉ idsStructs ss →
    dictGet (dumpStructs init ss memo) k = dictGet memo k
  | [], memo, h => by rw [dumpStructs]
  | s :: ss, memo, h => by
    rw [idsStructs, List.mem_append, not_or] at h
    rw [dumpStructs, dumpStructs_notin init ss _ h.2, s.dump_notin init memo h.1]
end

theorem PStruct.dump_own (init : List (ℕ × α)) (s : PStruct) (memo : MemoOf α) (h : dictGet memo s.id = none) :
    dictGet (s.dump init memo) s.id = some (dictGet init s.id) := by
  cases s with
  | mk i es o =>
    have h : dictGet memo i = none := h
    rw [PStruct.dump, if_neg (by simpa using dictGet_eq_none.1 h)]
    apply dumpEntries_mono
    show dictGet _ i = some (dictGet init i)
    rw [dictGet_append, h, dictGet_cons, if_pos rfl]
    rfl

theorem dumpAll_mono {k : ℕ} {x : Option (List V)} (os : List (DMObj V)) : ∀ (init : List (ℕ × List V)) (memo : Memo V),
    dictGet memo k = some x → dictGet (dumpAll os init memo) k = some x := by
  induction os with
  | nil => intro _ _ h; exact h
  | cons o os ih => intro init memo h; rw [dumpAll]; exact ih _ _ (o.st.dump_mono _ _ h)

/-- The first object that contains a struct decides what is found for this struct. -/
theorem dumpAll_first {o : DMObj V} (pre post : List (DMObj V)) (hpre : ∀ x ∈ pre, o.st.id ∉ x.st.ids) :
    ∀ (init : List (ℕ × List V)) (memo : Memo V), dictGet memo o.st.id = none →
    dictGet (dumpAll (pre ++ o :: post) init memo) o.st.id = some (some o.master) := by
  induction pre with
  | nil =>
    intro init memo h
    rw [List.nil_append, dumpAll]
    apply dumpAll_mono
    rw [o.st.dump_own _ _ h, dictGet_dictSet, if_pos rfl]
  | cons x pre ih =>
    intro init memo h
    rw [List.cons_append, dumpAll]
    exact ih (fun y hy => hpre y (List.mem_cons_of_mem _ hy)) _ _
      (by rw [x.st.dump_notin _ _ (hpre x List.mem_cons_self), h])

end

/-! ## C56 -/

/-- An unpickled object has the layout and the data of the object `⟨c, master, []⟩`: the same positions of all parts, the same
`.cat`, and everything that can be read reads the same. -/
structure SameAs (c : CS) (master : List V) (o : Obj V) : Prop where
  map : o.cs.map = c.map
  table : o.cs.table = c.table
  size : o.cs.size = c.size
  keys : o.cs.struct.keys = c.struct.keys
  cat : o.master = master
  read : ∀ pi, o.getitem pi = (⟨c, master, []⟩ : Obj V).getitem pi

theorem loadOne_same {memo : Memo V} {st : PStruct} (hwf : WFs st.struct.entries st.struct.order) {m : List V}
    (hm : dictGet memo st.id = some (some m)) {c : CS} (hc : CS.ofStruct st.struct = .ok c) (hl : m.length = c.size) :
    ∃ o, loadOne memo st = .ok o ∧ SameAs c m o := by
  obtain ⟨c', ls, h1, h2, hb⟩ := ofStruct_built hwf
  rw [hc] at h1
  cases h1
  refine ⟨⟨{ c with struct := ⟨stripAll st.struct.entries, st.struct.order⟩ }, m, []⟩, ?_, rfl, rfl, rfl, ?_, rfl, ?_⟩
  · rw [loadOne, hm]
    simp only
    show Except.bind (CS.new _ _) _ = _
    rw [CS.new, Struct.new_strip hwf]
    simp only
    rw [CS.ofStruct_strip, hc]
    show newMatrixStruct _ _ = _
    rw [newMatrixStruct, SMat.col, if_neg (by simpa [Sparsity.dense] using hl), if_neg (by simp [Sparsity.dense]),
      SMat.toColumn_dense rfl]
  · rw [h2]; rfl
  · exact fun pi => getitem_strip st.struct c h2 m pi

/-- Valid objects: well-formed structs, and data of the size of the struct. -/
def DMObj.Valid (o : DMObj V) (c : CS) : Prop :=
  WFs o.st.struct.entries o.st.struct.order ∧ CS.ofStruct o.st.struct = .ok c ∧ o.master.length = c.size

/-- **C56** (what holds): unpickling a pickled list of DM structs gives structs with the same layout and data, if no struct of
one of them is used (as its own struct, as a nested struct or in a `shapestruct`) by an earlier object of the list; what was
pickled before does not matter.
Missing: lists of objects that share structs, for which the claim is false (`C56_shared`, `C56_refuted`,
`C56_refuted_nested`). -/
theorem C56_list_partial (os : List (DMObj V)) (cs : List CS) (hv : List.Forall₂ DMObj.Valid os cs) (init : List (ℕ × List V))
    (hd : os.Pairwise fun x y => y.st.id ∉ x.st.ids) :
    ∃ rs, pickleList os init = .ok rs ∧ rs.length = os.length ∧
      ∀ (i : ℕ) (o : DMObj V) (c : CS) (r : Obj V), os[i]? = some o → cs[i]? = some c → rs[i]? = some r → SameAs c o.master r := by
  have hget : ∀ o ∈ os, dictGet (dumpAll os init []) o.st.id = some (some o.master) := by
    intro o ho
    obtain ⟨pre, post, e⟩ := List.append_of_mem ho
    rw [e]
    refine dumpAll_first pre post ?_ init [] rfl
    intro x hx
    rw [e, List.pairwise_append] at hd
    exact hd.2.2 x hx o List.mem_cons_self
  rw [pickleList]
  generalize dumpAll os init [] = memo at hget
  clear hd
  induction hv with
  | nil => exact ⟨[], rfl, rfl, by intro i o c r h; simp at h⟩
  | @cons o c os cs hv _ ih =>
    obtain ⟨r, h1, h2⟩ := loadOne_same hv.1 (hget o List.mem_cons_self) hv.2.1 hv.2.2
    obtain ⟨rs, h3, h4, h5⟩ := ih fun o ho => hget o (List.mem_cons_of_mem _ ho)
    refine ⟨r :: rs, ?_, by simp [h4], ?_⟩
    · rw [List.mapM_cons, h1, h3]
      rfl
    · intro i o' c' r' ho hc hr
      cases i with
      | zero =>
        simp only [List.getElem?_cons_zero, Option.some.injEq] at ho hc hr
        subst ho hc hr
        exact h2
      | succ i => exact h5 i o' c' r' (by simpa using ho) (by simpa using hc) (by simpa using hr)

/-- **C56**: unpickling a single pickled DM struct gives a struct with the same layout and data. -/
theorem C56_single (o : DMObj V) (c : CS) (hv : o.Valid c) (init : List (ℕ × List V)) :
    ∃ r, pickleList [o] init = .ok [r] ∧ SameAs c o.master r := by
  obtain ⟨rs, h1, h2, h3⟩ := C56_list_partial [o] [c] (.cons hv .nil) init (by simp)
  match rs, h2 with
  | [r], _ => exact ⟨r, h1, h3 0 o c r rfl rfl rfl⟩

/-- **C56** (false for shared structs): of several objects with the same struct, all are unpickled with the data of the
first one. -/
theorem C56_shared (o : DMObj V) (os : List (DMObj V)) (c : CS) (hv : o.Valid c) (init : List (ℕ × List V))
    (hs : ∀ x ∈ os, x.st = o.st) :
    ∃ rs, pickleList (o :: os) init = .ok rs ∧ rs.length = os.length + 1 ∧ ∀ r ∈ rs, SameAs c o.master r := by
  have hget := dumpAll_first (o := o) [] os (by simp) init [] rfl
  rw [List.nil_append] at hget
  obtain ⟨r, h1, h2⟩ := loadOne_same hv.1 hget hv.2.1 hv.2.2
  have : ∀ l : List (DMObj V), (∀ x ∈ l, x.st = o.st) →
      (l.mapM fun x => loadOne (dumpAll (o :: os) init []) x.st) = .ok (List.replicate l.length r) := by
    intro l hl
    induction l with
    | nil => rfl
    | cons x l ih =>
      rw [List.mapM_cons, hl x List.mem_cons_self, h1, ih fun y hy => hl y (List.mem_cons_of_mem _ hy)]
      rfl
  refine ⟨List.replicate (os.length + 1) r, ?_, by simp, ?_⟩
  · exact this (o :: os) (by
      intro x hx
      rcases List.mem_cons.1 hx with rfl | hx
      · rfl
      · exact hs x hx)
  · intro x hx
    rw [List.eq_of_mem_replicate hx]
    exact h2

/-- A struct with one scalar. -/
def exPickle : PStruct := .mk 7 [.prim "P" [] ⟨.dense 1 1, false, none, none⟩ []] [.one "P"]

theorem exPickle_valid (v : ℤ) : ∃ c, DMObj.Valid ⟨exPickle, [v]⟩ c := by
  have hwf : WFs (oneStruct ⟨.dense 1 1, false, none, none⟩).entries (oneStruct ⟨.dense 1 1, false, none, none⟩).order :=
    oneStruct_wf (Sparsity.dense_canon _ _)
  obtain ⟨c, h1, hz, -⟩ := C39_size _ hwf
  exact ⟨c, hwf, h1, by rw [hz]; show 1 = _; decide⟩

/-- **C56** (counterexample): of two objects with data 1 and 2 and the same struct, the second one is unpickled with data 1. -/
theorem C56_refuted : ∃ r r', pickleList [⟨exPickle, [(1 : ℤ)]⟩, ⟨exPickle, [2]⟩] [] = .ok [r, r'] ∧ r'.master = [1] := by
  obtain ⟨c, hv⟩ := exPickle_valid 1
  obtain ⟨rs, h1, h2, h3⟩ := C56_shared ⟨exPickle, [(1 : ℤ)]⟩ [⟨exPickle, [2]⟩] c hv [] (by simp)
  match rs, h2 with
  | [r, r'], _ => exact ⟨r, r', h1, (h3 r' (by simp)).cat⟩

/-- **C56** (counterexample): an object whose struct is nested in the struct of an earlier object of the list (and that was
not pickled before) cannot be unpickled. -/
theorem C56_refuted_nested (m : List ℤ) :
    ∃ e, pickleList [⟨.mk 8 [.nested "n" [] exPickle] [.one "n"], m⟩, ⟨exPickle, [2]⟩] [] = .error e := by
  have h : loadOne (dumpAll [⟨.mk 8 [.nested "n" [] exPickle] [.one "n"], m⟩, ⟨exPickle, [(2 : ℤ)]⟩] [] []) exPickle =
      .error .key := rfl
  rw [pickleList, List.mapM_cons]
  cases loadOne (dumpAll [⟨.mk 8 [.nested "n" [] exPickle] [.one "n"], m⟩, ⟨exPickle, [(2 : ℤ)]⟩] [] [])
    (.mk 8 [.nested "n" [] exPickle] [.one "n"]) with
  | error e => exact ⟨e, rfl⟩
  | ok r =>
    refine ⟨.key, ?_⟩
    show Except.bind _ _ = _
    rw [List.mapM_cons, h]
    rfl

/-- Two objects with different structs. -/
example : ∃ r r', pickleList [⟨exPickle, [(1 : ℤ)]⟩, ⟨.mk 9 [.prim "P" [] ⟨.dense 1 1, false, none, none⟩ []] [.one "P"], [2]⟩]
    [(7, [5]), (9, [6])] = .ok [r, r'] ∧ r.master = [1] ∧ r'.master = [2] := by
  obtain ⟨c, hv⟩ := exPickle_valid 1
  obtain ⟨c', hv'⟩ := exPickle_valid 2
  obtain ⟨rs, h1, h2, h3⟩ := C56_list_partial
    [⟨exPickle, [(1 : ℤ)]⟩, ⟨.mk 9 [.prim "P" [] ⟨.dense 1 1, false, none, none⟩ []] [.one "P"], [2]⟩] [c, c']
    (.cons hv (.cons hv' .nil)) [(7, [5]), (9, [6])] (by simp [exPickle, PStruct.ids, PStruct.id, idsEntries, PEntry.ids, idsStructs])
  match rs, h2 with
  | [r, r'], _ => exact ⟨r, r', h1, (h3 0 _ _ r rfl rfl rfl).cat, (h3 1 _ _ r' rfl rfl rfl).cat⟩

/-- One object is restored, whatever was pickled before it; three objects with one struct are all restored as the first. -/
example : (∃ r, pickleList [⟨exPickle, [(4 : ℤ)]⟩] [(7, [9])] = .ok [r] ∧ r.master = [4]) ∧
    ∃ rs, pickleList [⟨exPickle, [(1 : ℤ)]⟩, ⟨exPickle, [2]⟩, ⟨exPickle, [3]⟩] [] = .ok rs ∧ rs.length = 3 ∧
      ∀ r ∈ rs, r.master = [1] := by
  constructor
  · obtain ⟨c, hv⟩ := exPickle_valid 4
    obtain ⟨r, h1, h2⟩ := C56_single ⟨exPickle, [(4 : ℤ)]⟩ c hv [(7, [9])]
    exact ⟨r, h1, h2.cat⟩
  · obtain ⟨c, hv⟩ := exPickle_valid 1
    obtain ⟨rs, h1, h2, h3⟩ := C56_shared ⟨exPickle, [(1 : ℤ)]⟩ [⟨exPickle, [2]⟩, ⟨exPickle, [3]⟩] c hv [] (by simp)
    exact ⟨rs, h1, h2, fun r hr => (h3 r hr).cat⟩

/-- The struct that is pickled: its entries and its order, without the identities. -/
example : (PStruct.mk 7 [.nested "n" [2] (.mk 8 [.prim "u" [] ⟨.dense 1 1, false, none, none⟩ [], .prim "v" [3] ⟨.dense 2 1, false, none, none⟩ []] [.one "v", .one "u"]),
      .prim "x" [] ⟨.dense 2 2, true, none, none⟩ []] [.one "n", .one "x"]).struct =
    ⟨[.nested "n" [2] [.prim "u" [] ⟨.dense 1 1, false, none, none⟩, .prim "v" [3] ⟨.dense 2 1, false, none, none⟩] [.one "v", .one "u"],
      .prim "x" [] ⟨.dense 2 2, true, none, none⟩], [.one "n", .one "x"]⟩ := rfl

end CE.St
