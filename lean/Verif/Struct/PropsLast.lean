import Verif.Struct.LemLast
import Verif.Struct.PropsUniform
import Verif.Struct.PropsRepeat

/-! # C103: the last assignment wins -/

namespace CE.St

variable {V : Type}

theorem Built.full {c : CS} {ls} (hb : Built c ls) (hwf : WFs c.struct.entries c.struct.order) {a : CIdx} {i : IMat}
    (h : dictGet c.map a = some i) : Full i := by
  obtain ⟨e, sp, hp⟩ := hb.get_part hwf h
  obtain ⟨m', h1, h2, -⟩ := hb.part hwf hp
  rw [h] at h1
  cases h1
  exact h2.2

/-- **C103** If `s[pi] = w` succeeds, an assignment `s[pi] = v` before it leaves no trace, whether that one succeeds or raises
part-way: for every power index `pi` (whose callables make genuine matrices) and all values `v` and `w` without dicts. -/
theorem C103_last_partial [Zero V] (s : Struct) (hwf : WFs s.entries s.order) (c : CS) (hc : CS.ofStruct s = .ok c) (master : List V)
    (prio : List (CIdx × SMat V)) (pi : List (PIdx (PyFn V))) (hf : ∀ f, .fn f ∈ pi → f.Genuine) (v w : Pay V) (hv : Dictless v)
    (hw : Dictless w) (hok : ((⟨c, master, prio⟩ : Obj V).setitem pi w).1 = .ok ()) :
    ((⟨c, master, prio⟩ : Obj V).setitem pi v).2.setitem pi w = (⟨c, master, prio⟩ : Obj V).setitem pi w := by
  obtain ⟨c', ls, hc', rfl, hb⟩ := ofStruct_built hwf
  rw [hc] at hc'
  cases hc'
  have run : ∀ (v : Pay V) (m : List V), m.length = master.length →
      (⟨c, m, prio⟩ : Obj V).setitem pi v = ((setitemOn (logAssign master.length) c pi v []).1,
        ⟨c, writeAll m (setitemOn (logAssign master.length) c pi v []).2, prio⟩) := by
    intro v m hm
    obtain ⟨h1, h2⟩ := setitemOn_rel (assign_log m) c pi v m [] rfl
    rw [Obj.setitem_on]
    rw [hm] at h1 h2
    rw [← h1, ← h2]
  rw [run w master rfl] at hok ⊢
  rw [run v master rfl]
  simp only at hok ⊢
  rw [run w _ (writeAll_length _ _)]
  congr 2
  have hcov := setitemOn_cov c (fun a i h => hb.full hwf h) master.length pi (by rintro p hp f rfl; exact hf f hp) hv hw hok
  apply List.ext_getElem?
  intro k
  rw [writeAll_lastWrite, writeAll_lastWrite, writeAll_lastWrite, writeAll_length]
  by_cases hk : k < master.length
  · cases h2 : lastWrite master.length (setitemOn (logAssign master.length) c pi w []).2 k with
    | some x => rfl
    | none =>
      cases h1 : lastWrite master.length (setitemOn (logAssign master.length) c pi v []).2 k with
      | none => rfl
      | some x =>
        have h3 := (lastWrite_isSome _ _ hk).1 (by rw [h1]; rfl)
        have h4 := (lastWrite_isSome _ _ hk).2 (hcov k h3)
        rw [h2] at h4
        cases h4
  · rw [lastWrite_ge _ (setitemOn (logAssign master.length) c pi v []).2 (by omega)]
    rfl

/-- **C103** The elements that a successful `s[pi] = w` leaves alone, whatever they are, are left alone by every `s[pi] = v`: what is
written depends on the value, where it is written does not. -/
theorem C103_where_partial [Zero V] (s : Struct) (hwf : WFs s.entries s.order) (c : CS) (hc : CS.ofStruct s = .ok c) (master : List V)
    (prio : List (CIdx × SMat V)) (pi : List (PIdx (PyFn V))) (hf : ∀ f, .fn f ∈ pi → f.Genuine) (v w : Pay V) (hv : Dictless v)
    (hw : Dictless w) (hok : ((⟨c, master, prio⟩ : Obj V).setitem pi w).1 = .ok ()) (k : ℕ)
    (hk : ∀ m : List V, m.length = master.length → ((⟨c, m, prio⟩ : Obj V).setitem pi w).2.master[k]? = m[k]?) :
    ((⟨c, master, prio⟩ : Obj V).setitem pi v).2.master[k]? = master[k]? := by
  have h := C103_last_partial s hwf c hc master prio pi hf v w hv hw hok
  obtain ⟨r, u, hu, hall⟩ := C101_plan c master.length pi v
  obtain ⟨m1, h1, -⟩ := hall master prio rfl
  have hlen : m1.length = master.length := by
    have := Obj.setitem_length (⟨c, master, prio⟩ : Obj V) pi v
    rw [h1] at this
    exact this
  rw [h1] at h ⊢
  simp only at h ⊢
  rw [← hk m1 hlen, h, hk master rfl]

theorem stackFn_genuine : stackFn.Genuine := by
  intro t i _ h
  change stackCols t = .ok i at h
  cases t with
  | leaf => cases h
  | dict => cases h
  | list l =>
    rw [stackCols] at h
    cases hl : List.mapM leafData l with
    | error e => rw [hl] at h; cases h
    | ok ds =>
      rw [hl] at h
      cases h
      simp only [Full, SMat.col, Sparsity.dense, Sparsity.positions_length, Nat.mul_one]

/-- Whatever is assigned first to `s[vertcat, 'a']`, after `s[vertcat, 'a'] = [5, 6]` the elements of `a` are 5 and 6, and those of
`b`, which alternate with them, are the original ones. -/
example (c : CS) (hc : CS.ofStruct groupStruct = .ok c) (m : List ℚ) (hm : m.length = 4) (v : Pay ℚ) (hv : Dictless v) : ∃ m',
    ((⟨c, m, []⟩ : Obj ℚ).setitem [.fn stackFn, .str "a"] v).2.setitem [.fn stackFn, .str "a"] (.mat (.col [5, 6])) =
      (.ok (), ⟨c, m', []⟩) ∧ m'.getD 0 0 = 5 ∧ m'[1]? = m[1]? ∧ m'.getD 2 0 = 6 ∧ m'[3]? = m[3]? := by
  obtain ⟨c', hc', h2, hs, -, hi⟩ := groupStruct_i
  rw [hc] at hc'
  cases hc'
  have hwf' : WFs c.struct.entries c.struct.order := by rw [h2]; exact groupStruct_wf
  obtain ⟨m', h1, -, h3, h4⟩ := (C79_write_partial (⟨c, m, []⟩ : Obj ℚ) hwf' [] (.struct .root) stackFn [.str "a"]
    (.mat (.col [5, 6])) (.col [5, 6]) (.inl rfl)).1 _ ⟨.dense 2 1, [0, 2]⟩ _ hi rfl ⟨Sparsity.dense_canon _ _, rfl⟩ (by decide)
    (by simp only; rw [hm]; decide) ⟨Sparsity.dense_canon _ _, rfl⟩ (.same rfl rfl)
  simp only [List.map_nil, List.nil_append] at h1
  refine ⟨m', ?_, congrArg (fun l => l.getD 0 0) h3, h4 1 (by decide), congrArg (fun l => l.getD 1 0) h3, h4 3 (by decide)⟩
  rw [C103_last_partial groupStruct groupStruct_wf c hc m [] _ (by intro f hf; simp at hf; rw [hf]; exact stackFn_genuine) v _ hv
    (.mat _) (by rw [h1]), h1]

/-- A first assignment that raises part-way: the list has a wrong second element. -/
example : Dictless (.list [.num 7, .list [.num 8, .num 9]] : Pay ℚ) := by
  refine .list ?_
  intro p hp
  simp only [List.mem_cons, List.not_mem_nil, or_false] at hp
  rcases hp with rfl | rfl
  · exact .num _
  · refine .list ?_
    intro p hp
    simp only [List.mem_cons, List.not_mem_nil, or_false] at hp
    rcases hp with rfl | rfl <;> exact .num _

/-- **C103 fails** for dicts: after `s[{}] = {'x': [7, 8]}`, the successful `s[{}] = {}` does not restore `x`. -/
theorem C103_refuted_dict : ∃ (s : Struct) (c : CS) (m : List ℚ) (v w : Pay ℚ), WFs s.entries s.order ∧
    CS.ofStruct s = .ok c ∧ m.length = c.size ∧ ((⟨c, m, []⟩ : Obj ℚ).setitem [.dict] w).1 = .ok () ∧
    ((⟨c, m, []⟩ : Obj ℚ).setitem [.dict] v).1 = .ok () ∧
    ((⟨c, m, []⟩ : Obj ℚ).setitem [.dict] v).2.setitem [.dict] w ≠ (⟨c, m, []⟩ : Obj ℚ).setitem [.dict] w := by
  obtain ⟨c, h, hsize, _⟩ := C39_size exStruct exStruct_wf
  have hx : Entry.prim "x" [] ⟨.dense 2 1, false, none, none⟩ ∈ exStruct.entries := by simp [exStruct]
  have hl : IsPart exStruct.entries [.str "x"] _ _ :=
    .leaf (.prim hx .nil)
  let m : List ℚ := (List.range c.size).map fun _ => 0
  obtain ⟨i, hi, _, h1⟩ := C43_write_read exStruct exStruct_wf c h m (by simp [m]) _ _ _ hl (by simp)
  obtain ⟨m', h2, h3, h4, _⟩ := h1 _ _ (.mat ⟨.dense 2 1, [7, 8]⟩) ⟨Sparsity.dense_canon _ _, rfl⟩ _ (.same rfl rfl)
  obtain ⟨c', ls, hc', hs', hb⟩ := ofStruct_built exStruct_wf
  rw [h] at hc'
  cases hc'
  have hwf' : WFs c.struct.entries c.struct.order := by rw [hs']; exact exStruct_wf
  have hd : ∀ (m : List ℚ) (items : List (String × Pay ℚ)), (⟨c, m, []⟩ : Obj ℚ).setitem [.dict] (.dict items) =
      (⟨c, m, []⟩ : Obj ℚ).setAll (items.map fun kv => ([.str kv.1], kv.2)) := fun m items =>
    C63_write_dict (⟨c, m, []⟩ : Obj ℚ) hwf' [] _ _ .root [] items
  have hv : (⟨c, m, []⟩ : Obj ℚ).setitem [.dict] (.dict [("x", .mat ⟨.dense 2 1, [7, 8]⟩)]) = (.ok (), ⟨c, m', []⟩) := by
    rw [hd]
    show (⟨c, m, []⟩ : Obj ℚ).setAll [([.str "x"], .mat ⟨.dense 2 1, [7, 8]⟩)] = _
    have h2' : (⟨c, m, []⟩ : Obj ℚ).setitem [.str "x"] (.mat ⟨.dense 2 1, [7, 8]⟩) = (.ok (), ⟨c, m', []⟩) := h2
    rw [Obj.setAll, h2']
    rfl
  have hw : ∀ m : List ℚ, (⟨c, m, []⟩ : Obj ℚ).setitem [.dict] (.dict []) = (.ok (), ⟨c, m, []⟩) := fun m => by
    rw [hd]
    rfl
  refine ⟨exStruct, c, m, .dict [("x", .mat ⟨.dense 2 1, [7, 8]⟩)], .dict [], exStruct_wf, h, by simp [m], by rw [hw], by rw [hv], ?_⟩
  rw [hv, hw, hw]
  intro he
  have hm : m' = m := congrArg (fun r : Except PyErr Unit × Obj ℚ => r.2.master) he
  obtain ⟨i, _, _, hil, _, hik, hi⟩ := getitem_plain hb hwf' (master := m') (by rw [h3]; simp [m])
    (by rw [hs']; exact hl) (by simp)
  have h8 := Except.ok.inj (hi.symm.trans h4)
  have h9 : i.data.map (fun k => m'.getD k 0) = [7, 8] := by
    injection h8 with h8
    exact congrArg SMat.data h8
  have h10 : (7 : ℚ) ∈ i.data.map (fun k => m'.getD k 0) := by rw [h9]; simp
  obtain ⟨k, hk, e⟩ := List.mem_map.1 h10
  rw [hm] at e
  have : k < c.size := hik k hk
  simp only [m, List.getD_eq_getElem?_getD, List.getElem?_map, List.getElem?_range this] at e
  norm_num at e

/-- C103: where `s[vertcat, 'a'] = [5, 6]` never writes, no successful or failing earlier assignment to `s[vertcat, 'a']` did. -/
example (c : CS) (hc : CS.ofStruct groupStruct = .ok c) (m : List ℚ) (v : Pay ℚ) (hv : Dictless v) (k : ℕ)
    (hok : ((⟨c, m, []⟩ : Obj ℚ).setitem [.fn stackFn, .str "a"] (.mat (.col [5, 6]))).1 = .ok ())
    (hk : ∀ m' : List ℚ, m'.length = m.length →
      ((⟨c, m', []⟩ : Obj ℚ).setitem [.fn stackFn, .str "a"] (.mat (.col [5, 6]))).2.master[k]? = m'[k]?) :
    ((⟨c, m, []⟩ : Obj ℚ).setitem [.fn stackFn, .str "a"] v).2.master[k]? = m[k]? :=
  C103_where_partial groupStruct groupStruct_wf c hc m [] _ (by intro f hf; simp at hf; rw [hf]; exact stackFn_genuine) v _ hv
    (.mat _) hok k hk

end CE.St
