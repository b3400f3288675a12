import Verif.Struct.LemUniform
import Verif.Struct.PropsCallable

/-! # C100, C101, C102: reading is indexing, writing does not read, writing to different entries -/

namespace CE.St

variable {V : Type}

/-! ## C100 -/

/-- **C100** For a struct without entries of type 'symm' and an object without symbols of its own, `s[pi]` is `s.cat` indexed with
`s.i[pi]`, for every power index `pi` (whose callables do the same to index matrices and to matrices of values): the same
exceptions, the same nesting of lists and dicts, and matrices of the same sparsity with the elements of `s.cat` at the positions. -/
theorem C100_read [Zero V] [Add V] [Sub V] (s : Struct) (hwf : WFs s.entries s.order)
    (hs : Prims (fun p => p.symm = false) s.entries) (c : CS) (hc : CS.ofStruct s = .ok c) (master : List V)
    (hlen : master.length = c.size) (pi : List (PIdx (PyFn V))) (hf : ∀ f, .fn f ∈ pi → f.Rearranges ∧ f.Same) :
    (⟨c, master, []⟩ : Obj V).getitem pi =
      (c.i pi).map (Tree.map' fun i : IMat => ⟨i.sp, i.data.map fun k => master.getD k 0⟩) ∧
    ∀ t, c.i pi = .ok t → t.All fun i => ∀ k ∈ i.data, k < c.size := by
  obtain ⟨c', ls, hc', rfl, hb⟩ := ofStruct_built hwf
  rw [hc] at hc'
  cases hc'
  have hd := getDisp_imDisp (map := c.map) (master := master) fun d m hm => by rw [hlen]; exact hb.get_lt hwf hm
  have h := goStruct_relC hd c.struct.keys (travTable_rel hd c.struct.entries hs) pi false [] .none
    (.of_mem (C := fun _ => True) (fun _ _ _ => trivial) trivial _) (by rintro p hp f rfl; exact hf f hp) () () trivial
  rw [List.append_nil] at h
  rw [Obj.getitem, CS.i, Struct.traverse_fst, Struct.traverse_fst]
  simp only
  rcases hx : goStruct (getDisp c.map [] master) c.struct.keys (travTable (getDisp c.map [] master) c.struct.entries) pi false []
    .none () with ⟨r, u⟩
  rcases hy : goStruct (imDisp (V := V) c.map) c.struct.keys (travTable (imDisp c.map) c.struct.entries) pi false []
    .none () with ⟨r', u'⟩
  rw [hx, hy] at h
  cases r with
  | ok t => cases r' with
    | ok t' =>
      obtain ⟨⟨h1, h2⟩, -⟩ := h
      refine ⟨congrArg Except.ok h1, ?_⟩
      rintro _ ⟨⟩
      rw [← hlen]
      exact h2
    | error _ => exact h.elim
  | error e => cases r' with
    | ok _ => exact h.elim
    | error e' => exact ⟨rfl, by rintro _ ⟨⟩⟩

mutual
theorem Tree.map'_congr {α β : Type} {P : α → Prop} {g h : α → β} (hgh : ∀ a, P a → g a = h a) :
    ∀ t : Tree α, t.All P → t.map' g = t.map' h
  | .leaf a, ha => by rw [Tree.map', Tree.map', hgh a ha]
  | .list l, hl => by rw [Tree.map', Tree.map', Tree.map'_goList_congr hgh l hl]
  | .dict l, hl => by rw [Tree.map', Tree.map', Tree.map'_goDict_congr hgh l hl]
theorem Tree.map'_goList_congr {α β : Type} {P : α → Prop} {g h : α → β} (hgh : ∀ a, P a → g a = h a) :
    ∀ l : List (Tree α), Tree.All.goList P l → Tree.map'.goList g l = Tree.map'.goList h l
  | [], _ => rfl
  | t :: l, hl => by rw [Tree.map'.goList, Tree.map'.goList, Tree.map'_congr hgh t hl.1, Tree.map'_goList_congr hgh l hl.2]
theorem Tree.map'_goDict_congr {α β : Type} {P : α → Prop} {g h : α → β} (hgh : ∀ a, P a → g a = h a) :
    ∀ l : List (String × Tree α), Tree.All.goDict P l → Tree.map'.goDict g l = Tree.map'.goDict h l
  | [], _ => rfl
  | (k, t) :: l, hl => by rw [Tree.map'.goDict, Tree.map'.goDict, Tree.map'_congr hgh t hl.1, Tree.map'_goDict_congr hgh l hl.2]
end

/-- **C100** `s[pi]` depends on the elements at the positions `s.i[pi]` only. -/
theorem C100_local [Zero V] [Add V] [Sub V] (s : Struct) (hwf : WFs s.entries s.order)
    (hs : Prims (fun p => p.symm = false) s.entries) (c : CS) (hc : CS.ofStruct s = .ok c) (master master' : List V)
    (hlen : master.length = c.size) (hlen' : master'.length = c.size) (pi : List (PIdx (PyFn V)))
    (hf : ∀ f, .fn f ∈ pi → f.Rearranges ∧ f.Same)
    (h : ∀ t, c.i pi = .ok t → t.All fun i => ∀ k ∈ i.data, master[k]? = master'[k]?) :
    (⟨c, master, []⟩ : Obj V).getitem pi = (⟨c, master', []⟩ : Obj V).getitem pi := by
  rw [(C100_read s hwf hs c hc master hlen pi hf).1, (C100_read s hwf hs c hc master' hlen' pi hf).1]
  cases hi : c.i pi with
  | error e => rfl
  | ok t =>
    refine congrArg Except.ok (Tree.map'_congr (fun i hi => ?_) t (h t hi))
    congr 1
    refine List.map_congr_left fun k hk => ?_
    rw [List.getD_eq_getElem?_getD, List.getD_eq_getElem?_getD, hi k hk]

/-- The callable `lambda l: vertcat(*l)` rearranges index matrices and does the same to matrices of values. -/
theorem stackFn_ok : stackFn.Rearranges ∧ stackFn.Same := by
  have key : ∀ {β : Type} (g : ℕ → β) (l : List (Tree IMat)),
      (Tree.map'.goList (SMat.mapData g) l).mapM leafData = (l.mapM leafData).map (List.map (List.map g)) := by
    intro β g l
    induction l with
    | nil => rfl
    | cons t l ih =>
      rw [Tree.map'.goList, List.mapM_cons, List.mapM_cons, ih]
      cases t with
      | leaf m => cases h : List.mapM leafData l <;> rfl
      | list => rfl
      | dict => rfl
  have key' : ∀ {β : Type} (g : ℕ → β) (t : Tree IMat),
      stackCols (t.map' (SMat.mapData g)) = (stackCols t).map (SMat.mapData g) := by
    intro β g t
    cases t with
    | leaf => rfl
    | dict => rfl
    | list l =>
      rw [Tree.map', stackCols, stackCols, key]
      cases List.mapM leafData l with
      | error e => rfl
      | ok ds =>
        refine congrArg Except.ok ?_
        simp only [SMat.mapData, SMat.col, ← List.map_flatten, List.length_map]
  refine ⟨key', fun g t => ?_⟩
  show (stackCols (t.map' (SMat.mapData g))).map Tree.leaf = _
  rw [key']
  show _ = (stackCols t).map _
  cases stackCols t <;> rfl

/-- `s[vertcat, 'a']` for a struct with `a` and `b` alternating. -/
example (c : CS) (hc : CS.ofStruct groupStruct = .ok c) (x y z w : ℚ) :
    (⟨c, [x, y, z, w], []⟩ : Obj ℚ).getitem [.fn stackFn, .str "a"] = .ok (.leaf (.col [x, z])) := by
  obtain ⟨c', hc', h2, hs, hi, ha⟩ := groupStruct_i
  rw [hc] at hc'
  cases hc'
  rw [(C100_read groupStruct groupStruct_wf ⟨rfl, rfl, trivial⟩ c hc [x, y, z, w] (by rw [hs]; rfl) [.fn stackFn, .str "a"]
    (by intro f hf; simp at hf; rw [hf]; exact stackFn_ok)).1]
  have : c.i (V := ℚ) [.fn stackFn, .str "a"] = .ok (.leaf (.col [0, 2])) := by
    refine (C79_index (V := ℚ) c (by rw [h2]; exact groupStruct_wf) [] (.struct .root) stackFn [.str "a"]).trans ?_
    rw [List.map_nil, List.nil_append, ha]
    rfl
  rw [this]
  rfl

/-! ## C101 -/

/-- **C101** Assignments do not read the object: for every power index and value there are one result (success or the exception) and
one function `w` of the positions such that for all contents of the object the assignment gives this result and puts `w k` at the
positions where `w` is defined, leaving the other elements alone.  This includes assignments that raise after having written
some elements. -/
theorem C101_plan [Zero V] (c : CS) (n : ℕ) (pi : List (PIdx (PyFn V))) (v : Pay V) :
    ∃ (r : Except PyErr Unit) (w : ℕ → Option V), (∀ k, n ≤ k → w k = none) ∧
      ∀ (master : List V) (prio : List (CIdx × SMat V)), master.length = n →
        ∃ master', (⟨c, master, prio⟩ : Obj V).setitem pi v = (r, ⟨c, master', prio⟩) ∧
          ∀ k, master'[k]? = (w k).or master[k]? := by
  refine ⟨(setitemOn (logAssign n) c pi v []).1, lastWrite n (setitemOn (logAssign n) c pi v []).2,
    fun k hk => lastWrite_ge n _ hk, ?_⟩
  rintro master prio rfl
  obtain ⟨h1, h2⟩ := setitemOn_rel (assign_log master) c pi v master [] rfl
  refine ⟨(setitemOn assign c pi v master).2, ?_, fun k => ?_⟩
  · rw [Obj.setitem_on, ← h1]
  · rw [h2, writeAll_lastWrite]

/-- **C101** The same for sequences of assignments, up to the first one that raises. -/
theorem C101_program [Zero V] (c : CS) (n : ℕ) (l : List (List (PIdx (PyFn V)) × Pay V)) :
    ∃ (r : Except PyErr Unit) (w : ℕ → Option V), (∀ k, n ≤ k → w k = none) ∧
      ∀ (master : List V) (prio : List (CIdx × SMat V)), master.length = n →
        ∃ master', (⟨c, master, prio⟩ : Obj V).setAll l = (r, ⟨c, master', prio⟩) ∧
          ∀ k, master'[k]? = (w k).or master[k]? := by
  induction l with
  | nil =>
    refine ⟨.ok (), fun _ => none, fun _ _ => rfl, fun master prio _ => ⟨master, rfl, fun k => ?_⟩⟩
    simp
  | cons x l ih =>
    obtain ⟨pi, v⟩ := x
    obtain ⟨r, w, hw, h⟩ := C101_plan c n pi v
    cases r with
    | error e =>
      refine ⟨.error e, w, hw, fun master prio hm => ?_⟩
      obtain ⟨m', h1, h2⟩ := h master prio hm
      exact ⟨m', by rw [Obj.setAll, h1], h2⟩
    | ok u =>
      obtain ⟨r', w', hw', h'⟩ := ih
      refine ⟨r', fun k => (w' k).or (w k), fun k hk => by beta_reduce; rw [hw k hk, hw' k hk]; rfl, fun master prio hm => ?_⟩
      obtain ⟨m1, h1, h2⟩ := h master prio hm
      have hlen : m1.length = n := by
        have := Obj.setitem_length (⟨c, master, prio⟩ : Obj V) pi v
        rw [h1] at this
        exact this.trans hm
      obtain ⟨m2, h3, h4⟩ := h' m1 prio hlen
      refine ⟨m2, by rw [Obj.setAll, h1]; exact h3, fun k => ?_⟩
      rw [h4, h2, Option.or_assoc]

theorem option_or_self {α : Type} (x y : Option α) : x.or (x.or y) = x.or y := by cases x <;> rfl

/-- **C101** Doing a sequence of assignments again, whether it succeeded or raised, has the same result and changes nothing. -/
theorem C101_again [Zero V] (o o' : Obj V) (l : List (List (PIdx (PyFn V)) × Pay V)) (r : Except PyErr Unit)
    (h : o.setAll l = (r, o')) : o'.setAll l = (r, o') := by
  obtain ⟨c, master, prio⟩ := o
  obtain ⟨r1, w, hw, hall⟩ := C101_program c master.length l
  obtain ⟨m1, h1, h2⟩ := hall master prio rfl
  rw [h] at h1
  cases h1
  have hlen : m1.length = master.length := by
    by_contra hne
    rcases Nat.lt_or_gt_of_ne hne with hlt | hlt
    · have := h2 m1.length
      rw [List.getElem?_eq_none le_rfl, List.getElem?_eq_getElem hlt] at this
      cases hx : w m1.length <;> rw [hx] at this <;> cases this
    · have := h2 master.length
      rw [List.getElem?_eq_getElem hlt, hw _ le_rfl, List.getElem?_eq_none le_rfl] at this
      cases this
  obtain ⟨m2, h3, h4⟩ := hall m1 prio hlen
  rw [h3]
  congr 2
  apply List.ext_getElem?
  intro k
  rw [h4, h2, option_or_self]

/-- `s[vertcat, 'a'] = [5, 6]` twice. -/
example (c : CS) (hc : CS.ofStruct groupStruct = .ok c) (m : List ℚ) (hm : m.length = 4) : ∃ m',
    (⟨c, m, []⟩ : Obj ℚ).setAll [([.fn stackFn, .str "a"], .mat (.col [5, 6]))] = (.ok (), ⟨c, m', []⟩) ∧
      m'.getD 0 0 = 5 ∧ m'[1]? = m[1]? ∧
      (⟨c, m', []⟩ : Obj ℚ).setAll [([.fn stackFn, .str "a"], .mat (.col [5, 6]))] = (.ok (), ⟨c, m', []⟩) := by
  obtain ⟨c', hc', h2, hs, -, hi⟩ := groupStruct_i
  rw [hc] at hc'
  cases hc'
  have hwf' : WFs c.struct.entries c.struct.order := by rw [h2]; exact groupStruct_wf
  obtain ⟨m', h1, -, h3, h4⟩ := (C79_write_partial (⟨c, m, []⟩ : Obj ℚ) hwf' [] (.struct .root) stackFn [.str "a"]
    (.mat (.col [5, 6])) (.col [5, 6]) (.inl rfl)).1 _ ⟨.dense 2 1, [0, 2]⟩ _ hi rfl ⟨Sparsity.dense_canon _ _, rfl⟩ (by decide)
    (by simp only; rw [hm]; decide) ⟨Sparsity.dense_canon _ _, rfl⟩ (.same rfl rfl)
  have h5 : (⟨c, m, []⟩ : Obj ℚ).setAll [([.fn stackFn, .str "a"], .mat (.col [5, 6]))] = (.ok (), ⟨c, m', []⟩) := by
    simp only [List.map_nil, List.nil_append] at h1
    rw [Obj.setAll, h1]
    rfl
  exact ⟨m', h5, congrArg (fun l => l.getD 0 0) h3, h4 1 (by decide), C101_again _ _ _ _ h5⟩

/-! ## C102 -/

/-- A power index for some entries of the struct: callables, then a name or a set of names, then anything. -/
inductive AtNames : List (PIdx (PyFn V)) → List String → Prop
  | name (n rest) : AtNames (.str n :: rest) [n]
  | set (ns rest) : AtNames (.set ns :: rest) ns
  | fn (f) {pi ns} : AtNames pi ns → AtNames (.fn f :: pi) ns

/-- The canonical indices of the entries `ns`. -/
def HeadIn (ns : List String) (c : CIdx) : Prop := ∃ n ∈ ns, c.head? = some (.str n)

theorem HeadIn.ext {ns : List String} (c : CIdx) (k : Key) (h : HeadIn ns c) : HeadIn ns (c ++ [k]) := by
  obtain ⟨n, hn, h⟩ := h
  refine ⟨n, hn, ?_⟩
  cases c with
  | nil => cases h
  | cons x c => exact h

theorem AtNames.starts {pi : List (PIdx (PyFn V))} {ns : List String} (h : AtNames pi ns) : Starts (HeadIn ns) [] pi := by
  induction h with
  | name n rest => rintro _ rfl; exact ⟨n, List.mem_singleton.2 rfl, rfl⟩
  | set ns rest => rintro _ ⟨k, hk, rfl⟩; exact ⟨k, hk, rfl⟩
  | fn f _ ih => exact ih

/-- The positions of the entries `ns`. -/
def PosIn (c : CS) (ns : List String) (k : ℕ) : Prop := ∃ d m, HeadIn ns d ∧ dictGet c.map d = some m ∧ k ∈ m.data

theorem frame_aux [Zero V] (c : CS) (ns : List String) (pi : List (PIdx (PyFn V))) (h : AtNames pi ns)
    (hf : ∀ f, .fn f ∈ pi → f.Rearranges) (v : Pay V) (master : List V) (prio : List (CIdx × SMat V)) (k : ℕ)
    (hk : ¬ PosIn c ns k) : ((⟨c, master, prio⟩ : Obj V).setitem pi v).2.master[k]? = master[k]? := by
  have hd := setDispOn_frame (V := V) (C := HeadIn ns) HeadIn.ext (map := c.map) (P := PosIn c ns)
    (fun d m hd hm k hk => ⟨d, m, hd, hm, hk⟩) master
  have h := goStruct_relC hd c.struct.keys (travTable_rel hd c.struct.entries (Prims.true _)) pi false [] v h.starts
    (by rintro p hp f rfl; exact hf f hp) master master ⟨rfl, fun _ _ => rfl⟩
  rw [List.append_nil] at h
  rw [Obj.setitem_on, setitemOn_eq, Struct.traverse_fst]
  simp only
  rcases hx : goStruct (setDispOn assign c.map) c.struct.keys (travTable (setDispOn assign c.map) c.struct.entries) pi false [] v
    master with ⟨r, u⟩
  rw [hx] at h
  cases r with
  | ok t => exact h.2.2 k hk
  | error e => exact h.2.2 k hk

theorem PosIn.disjoint {c : CS} {ls} (hb : Built c ls) (hwf : WFs c.struct.entries c.struct.order) {ns ns' : List String}
    (hd : ∀ n ∈ ns, n ∉ ns') {k : ℕ} (h : PosIn c ns k) : ¬ PosIn c ns' k := by
  rintro ⟨d', m', ⟨n', hn', hh'⟩, hg', hk'⟩
  obtain ⟨d, m, ⟨n, hn, hh⟩, hg, hk⟩ := h
  obtain ⟨e, sp, hp⟩ := hb.get_part hwf hg
  obtain ⟨e', sp', hp'⟩ := hb.get_part hwf hg'
  have hne : n ≠ n' := fun h => hd n hn (h ▸ hn')
  have key : ∀ {a b : CIdx} {x y : String}, a.head? = some (.str x) → b.head? = some (.str y) → x ≠ y → ¬ a <+: b := by
    intro a b x y ha hb hxy hab
    cases a with
    | nil => cases ha
    | cons z a =>
      cases b with
      | nil => cases hb
      | cons z' b =>
        have := List.cons_prefix_cons.1 hab
        simp only [List.head?_cons, Option.some.injEq] at ha hb
        rw [ha, hb] at this
        exact hxy (by injection this.1)
  exact hb.part_disjoint hwf hp hp' (key hh hh' hne) (key hh' hh (Ne.symm hne)) hg hg' hk hk'

/-- **C102** An assignment to some entries of a struct, with anything after the names in the power index and whether it succeeds or
raises, changes no element of any other entry. -/
theorem C102_frame [Zero V] (s : Struct) (hwf : WFs s.entries s.order) (c : CS) (hc : CS.ofStruct s = .ok c) (ns : List String)
    (pi : List (PIdx (PyFn V))) (hpi : AtNames pi ns) (hf : ∀ f, .fn f ∈ pi → f.Rearranges) (v : Pay V) (master : List V)
    (prio : List (CIdx × SMat V)) (n : String) (hn : n ∉ ns) (ks : CIdx) (p : Prim) (hl : IsLeaf s.entries (.str n :: ks) p)
    (i : IMat) (hi : c.i (V := V) (.str n :: ks.map .ofKey) = .ok (.leaf i)) (k : ℕ) (hk : k ∈ i.data) :
    ((⟨c, master, prio⟩ : Obj V).setitem pi v).2.master[k]? = master[k]? := by
  obtain ⟨c', ls, hc', rfl, hb⟩ := ofStruct_built hwf
  rw [hc] at hc'
  cases hc'
  obtain ⟨pre, post, _, hg⟩ := hb.leaf_get hwf hl
  have h3 := c.i_leaf (V := V) hwf hl
  rw [hg] at h3
  have h4 := h3.symm.trans hi
  cases h4
  exact frame_aux c ns pi hpi hf v master prio k
    (PosIn.disjoint hb hwf (ns := [n]) (by simpa using hn) ⟨_, _, ⟨n, List.mem_singleton.2 rfl, rfl⟩, hg, hk⟩)

/-- **C102** Assignments to different entries can be exchanged: each has the result that it has alone, and the contents after both
do not depend on their order. -/
theorem C102_commute [Zero V] (s : Struct) (hwf : WFs s.entries s.order) (c : CS) (hc : CS.ofStruct s = .ok c)
    (ns ns' : List String) (hd : ∀ n ∈ ns, n ∉ ns') (pi pi' : List (PIdx (PyFn V))) (hpi : AtNames pi ns) (hpi' : AtNames pi' ns')
    (hf : ∀ f, .fn f ∈ pi → f.Rearranges) (hf' : ∀ f, .fn f ∈ pi' → f.Rearranges) (v v' : Pay V) (master : List V)
    (prio : List (CIdx × SMat V)) :
    ∃ o, (((⟨c, master, prio⟩ : Obj V).setitem pi v).2.setitem pi' v') = (((⟨c, master, prio⟩ : Obj V).setitem pi' v').1, o) ∧
      (((⟨c, master, prio⟩ : Obj V).setitem pi' v').2.setitem pi v) = (((⟨c, master, prio⟩ : Obj V).setitem pi v).1, o) := by
  obtain ⟨c', ls, hc', rfl, hb⟩ := ofStruct_built hwf
  rw [hc] at hc'
  cases hc'
  obtain ⟨r, w, hw, h⟩ := C101_plan c master.length pi v
  obtain ⟨r', w', hw', h'⟩ := C101_plan c master.length pi' v'
  obtain ⟨m1, h1, e1⟩ := h master prio rfl
  obtain ⟨m1', h1', e1'⟩ := h' master prio rfl
  have hlen : m1.length = master.length := by
    have := Obj.setitem_length (⟨c, master, prio⟩ : Obj V) pi v
    rwa [h1] at this
  have hlen' : m1'.length = master.length := by
    have := Obj.setitem_length (⟨c, master, prio⟩ : Obj V) pi' v'
    rwa [h1'] at this
  obtain ⟨m2, h2, e2⟩ := h' m1 prio hlen
  obtain ⟨m2', h2', e2'⟩ := h m1' prio hlen'
  refine ⟨⟨c, m2, prio⟩, by rw [h1, h1']; exact h2, ?_⟩
  rw [h1', h1]
  simp only
  rw [h2']
  congr 2
  apply List.ext_getElem?
  intro k
  by_cases hk : PosIn c ns k
  · have f1 := frame_aux c ns' pi' hpi' hf' v' master prio k (hk.disjoint hb hwf hd)
    have f2 := frame_aux c ns' pi' hpi' hf' v' m1 prio k (hk.disjoint hb hwf hd)
    rw [h1'] at f1
    rw [h2] at f2
    rw [e2', f1, f2, e1]
  · have f1 := frame_aux c ns pi hpi hf v master prio k hk
    have f2 := frame_aux c ns pi hpi hf v m1' prio k hk
    rw [h1] at f1
    rw [h2'] at f2
    rw [e2, f1, f2, e1']

/-- `s['a', ...] = v`, with anything in place of the dots and for `v`, leaves the elements of `b` alone, which alternate with those
of `a`; and it can be exchanged with `s[f, 'b', ...] = w`. -/
example (c : CS) (hc : CS.ofStruct groupStruct = .ok c) (x y z w : ℚ) (r r' : List (PIdx (PyFn ℚ))) (v v' : Pay ℚ)
    (hr : ∀ f, PIdx.fn f ∈ r → f.Rearranges) (hr' : ∀ f, PIdx.fn f ∈ r' → f.Rearranges) :
    ((⟨c, [x, y, z, w], []⟩ : Obj ℚ).setitem (.str "a" :: r) v).2.master[3]? = some w ∧
    (((⟨c, [x, y, z, w], []⟩ : Obj ℚ).setitem (.str "a" :: r) v).2.setitem (.fn stackFn :: .str "b" :: r') v').2 =
      (((⟨c, [x, y, z, w], []⟩ : Obj ℚ).setitem (.fn stackFn :: .str "b" :: r') v').2.setitem (.str "a" :: r) v).2 := by
  have h1 : ∀ f, PIdx.fn f ∈ PIdx.str "a" :: r → f.Rearranges := by
    intro f hf
    rcases List.mem_cons.1 hf with hf | hf
    · cases hf
    · exact hr f hf
  constructor
  · obtain ⟨c', ls, hc', hcs, hb⟩ := ofStruct_built groupStruct_wf
    rw [hc] at hc'
    cases hc'
    have hwf' : WFs c.struct.entries c.struct.order := by rw [hcs]; exact groupStruct_wf
    have heb : Entry.prim "b" [2] ⟨.dense 1 1, false, none, none⟩ ∈ c.struct.entries := by
      rw [hcs]; exact List.mem_cons_of_mem _ List.mem_cons_self
    have hd : InDims [.int (1 : ℕ)] [2] := .cons ⟨1, by decide, rfl⟩ .nil
    have htops : tops c.struct.entries c.struct.order = [[.str "a", .int 0], [.str "b", .int 0], [.str "a", .int 1],
      [.str "b", .int 1]] := by rw [hcs]; decide
    have hg : dictGet c.map [.str "b", .int (1 : ℕ)] = some ⟨.dense 1 1, [3]⟩ := by
      refine (hb.top_pos hwf' heb hd (A := [[.str "a", .int 0], [.str "b", .int 0], [.str "a", .int 1]]) (B := _) htops).trans ?_
      simp only [hcs]
      rfl
    have hi := c.i_leaf (V := ℚ) hwf' (.prim heb hd)
    rw [hg] at hi
    exact C102_frame groupStruct groupStruct_wf c hc ["a"] _ (.name "a" r) h1 v _ _ "b" (by decide) [.int (1 : ℕ)] _
      (.prim (hcs ▸ heb) hd) _ hi 3 (by decide)
  · obtain ⟨o, h3, h4⟩ := C102_commute groupStruct groupStruct_wf c hc ["a"] ["b"] (by decide) _ _ (.name "a" r)
      (.fn stackFn (.name "b" r')) h1 (by
        intro f hf
        rcases List.mem_cons.1 hf with hf | hf
        · cases hf; exact stackFn_ok.1
        · rcases List.mem_cons.1 hf with hf | hf
          · cases hf
          · exact hr' f hf) v v' [x, y, z, w] []
    rw [h3, h4]

/-- C101: for every assignment to an object with four elements there is one plan for all contents. -/
example (c : CS) : ∃ (r : Except PyErr Unit) (w : ℕ → Option ℚ), ∀ x y z u : ℚ, ∃ master',
    (⟨c, [x, y, z, u], []⟩ : Obj ℚ).setAll [([.str "a", .int 0], .num 7), ([.str "b", .int 1], .num 8)] = (r, ⟨c, master', []⟩) ∧
      ∀ k, master'[k]? = (w k).or [x, y, z, u][k]? := by
  obtain ⟨r, w, -, h⟩ := C101_program (V := ℚ) c 4 [([.str "a", .int 0], .num 7), ([.str "b", .int 1], .num 8)]
  exact ⟨r, w, fun x y z u => h [x, y, z, u] [] rfl⟩

/-- C100: `s[vertcat, 'a']` is the same for two contents that agree at the positions of `a`. -/
example (c : CS) (hc : CS.ofStruct groupStruct = .ok c) (x y y' z w w' : ℚ) :
    (⟨c, [x, y, z, w], []⟩ : Obj ℚ).getitem [.fn stackFn, .str "a"] =
      (⟨c, [x, y', z, w'], []⟩ : Obj ℚ).getitem [.fn stackFn, .str "a"] := by
  obtain ⟨c', hc', h2, hs, hi, ha⟩ := groupStruct_i
  rw [hc] at hc'
  cases hc'
  refine C100_local groupStruct groupStruct_wf ⟨rfl, rfl, trivial⟩ c hc _ _ (by rw [hs]; rfl) (by rw [hs]; rfl) _
    (by intro f hf; simp at hf; rw [hf]; exact stackFn_ok) ?_
  intro t ht
  have : c.i (V := ℚ) [.fn stackFn, .str "a"] = .ok (.leaf (.col [0, 2])) := by
    refine (C79_index (V := ℚ) c (by rw [h2]; exact groupStruct_wf) [] (.struct .root) stackFn [.str "a"]).trans ?_
    rw [List.map_nil, List.nil_append, ha]
    rfl
  rw [this] at ht
  cases ht
  intro k hk
  simp [SMat.col] at hk
  rcases hk with rfl | rfl <;> rfl

end CE.St
