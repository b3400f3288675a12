import Verif.Struct.LemTouch
import Verif.Struct.PropsLens
import Verif.Struct.PropsSymm

/-! # C105: an assignment changes only what its index selects -/

namespace CE.St

variable {V : Type} [Zero V]

/-- **C105** (frame) In a struct without entries of type 'symm', `s[pi] = v` changes no element that `s.i[pi]`, `pi` without its
callables, does not contain: for every power index, every value, and whether or not the assignment succeeds. -/
theorem C105_frame (s : Struct) (hwf : WFs s.entries s.order) (hs : Prims (fun p => p.symm = false) s.entries) (c : CS)
    (hc : CS.ofStruct s = .ok c) (pi : List (PIdx (PyFn V))) (hf : ∀ f, .fn f ∈ pi → f.Rearranges) (ti : Tree IMat)
    (hi : c.i (V := V) (pi.filter fun p => !p.isFn) = .ok ti) (v : Pay V) (master : List V) (prio : List (CIdx × SMat V)) (k : ℕ)
    (hk : ti.All fun i => k ∉ i.data) : ((⟨c, master, prio⟩ : Obj V).setitem pi v).2.master[k]? = master[k]? := by
  obtain ⟨c', ls, hc', rfl, hb⟩ := ofStruct_built hwf
  rw [hc] at hc'
  cases hc'
  have ht := goStruct_touch (d := imDisp (V := V) c.map) (d' := setDispOn assign c.map) hwf.nodup c.struct.keys
    (travTable_touch c.map c.struct.entries hs fun n ds es' o' he => hwf.sub n ds es' o' he)
    (fun inner f pay c r hf hr => outer_keeps inner hf pay c hr)
    (fun inner c pay => call_touch inner c none [] rfl none rfl (by simp [Fns]) none (by rintro _ ⟨⟩) pay) pi false [] v
    (by rintro p hp f rfl; exact hf f hp)
  rw [CS.i, Struct.traverse_fst] at hi
  have hi : (goStruct (imDisp (V := V) c.map) c.struct.keys (travTable (imDisp c.map) c.struct.entries) (noFns pi) false [] .none
      ()).1 = .ok ti := by
    change gen (goStruct (imDisp (V := V) c.map) c.struct.keys (travTable (imDisp c.map) c.struct.entries) (noFns pi) false [] .none
      ()).1 = .ok ti at hi
    revert hi
    cases (goStruct (imDisp (V := V) c.map) c.struct.keys (travTable (imDisp c.map) c.struct.entries) (noFns pi) false [] .none
      ()).1 with
    | error e => rintro ⟨⟩
    | ok t => exact id
  rw [Obj.setitem_on, setitemOn_eq, Struct.traverse_fst]
  exact (ht ti hi (fun j => j ≠ k) (hk.imp (Q := Inside fun j => j ≠ k) fun i hki j hj h => hki (h ▸ hj)) master).1 k (by simp)

/-- **C105** (exchange) Assignments that select different elements can be exchanged: each has the result that it has alone, and the
contents after both do not depend on their order. -/
theorem C105_commute (s : Struct) (hwf : WFs s.entries s.order) (hs : Prims (fun p => p.symm = false) s.entries) (c : CS)
    (hc : CS.ofStruct s = .ok c) (pi pi' : List (PIdx (PyFn V))) (hf : ∀ f, .fn f ∈ pi → f.Rearranges)
    (hf' : ∀ f, .fn f ∈ pi' → f.Rearranges) (ti ti' : Tree IMat) (hi : c.i (V := V) (pi.filter fun p => !p.isFn) = .ok ti)
    (hi' : c.i (V := V) (pi'.filter fun p => !p.isFn) = .ok ti')
    (hd : ∀ k, (ti.All fun i => k ∉ i.data) ∨ ti'.All fun i => k ∉ i.data) (v v' : Pay V) (master : List V)
    (prio : List (CIdx × SMat V)) :
    ∃ o, (((⟨c, master, prio⟩ : Obj V).setitem pi v).2.setitem pi' v') = (((⟨c, master, prio⟩ : Obj V).setitem pi' v').1, o) ∧
      (((⟨c, master, prio⟩ : Obj V).setitem pi' v').2.setitem pi v) = (((⟨c, master, prio⟩ : Obj V).setitem pi v).1, o) := by
  obtain ⟨r, w, hw, h⟩ := C101_plan c master.length pi v
  obtain ⟨r', w', hw', h'⟩ := C101_plan c master.length pi' v'
  obtain ⟨m1, h1, e1⟩ := h master prio rfl
  obtain ⟨m1', h1', e1'⟩ := h' master prio rfl
  have hlen : m1.length = master.length := by
    have := Obj.setitem_length (⟨c, master, prio⟩ : Obj V) pi v
    rwa [h1] at this
  have hlen' : m1'.length = master.length := by
    have := Obj.setitem_length (⟨c, master, prio⟩ : Obj V) pi' v'
    rwa [h1'] at this
  obtain ⟨m2, h2, e2⟩ := h' m1 prio hlen
  obtain ⟨m2', h2', e2'⟩ := h m1' prio hlen'
  refine ⟨⟨c, m2, prio⟩, by rw [h1, h1']; exact h2, ?_⟩
  rw [h1', h1]
  simp only
  rw [h2']
  congr 2
  apply List.ext_getElem?
  intro k
  rcases hd k with hk | hk
  · have f1 := C105_frame s hwf hs c hc pi hf ti hi v master prio k hk
    have f2 := C105_frame s hwf hs c hc pi hf ti hi v m1' prio k hk
    rw [h1] at f1
    rw [h2'] at f2
    rw [e2, f1, f2, e1']
  · have f1 := C105_frame s hwf hs c hc pi' hf' ti' hi' v' master prio k hk
    have f2 := C105_frame s hwf hs c hc pi' hf' ti' hi' v' m1 prio k hk
    rw [h1'] at f1
    rw [h2] at f2
    rw [e2', f1, f2, e1]

/-- **C105** (reading) An assignment does not change what a power index with other elements reads. -/
theorem C105_read [Add V] [Sub V] (s : Struct) (hwf : WFs s.entries s.order) (hs : Prims (fun p => p.symm = false) s.entries) (c : CS)
    (hc : CS.ofStruct s = .ok c) (pi pi' : List (PIdx (PyFn V))) (hf : ∀ f, .fn f ∈ pi → f.Rearranges)
    (hf' : ∀ f, .fn f ∈ pi' → f.Rearranges ∧ f.Same) (ti : Tree IMat) (hi : c.i (V := V) (pi.filter fun p => !p.isFn) = .ok ti)
    (hd : ∀ ti', c.i pi' = .ok ti' → ti'.All fun i => ∀ k ∈ i.data, ti.All fun j => k ∉ j.data) (v : Pay V) (master : List V)
    (hlen : master.length = c.size) :
    ((⟨c, master, []⟩ : Obj V).setitem pi v).2.getitem pi' = (⟨c, master, []⟩ : Obj V).getitem pi' := by
  have hl := Obj.setitem_length (⟨c, master, []⟩ : Obj V) pi v
  have hfr := C105_frame s hwf hs c hc pi hf ti hi v master []
  rw [Obj.setitem_on] at hl hfr ⊢
  simp only at hl hfr ⊢
  rw [(C100_read s hwf hs c hc _ (hl.trans hlen) pi' hf').1, (C100_read s hwf hs c hc _ hlen pi' hf').1]
  cases hi' : c.i pi' with
  | error e => rfl
  | ok ti' =>
    refine congrArg Except.ok (Tree.map'_congr (P := fun i : IMat => ∀ k ∈ i.data, ti.All fun j => k ∉ j.data) (fun i h => ?_) _
      (hd ti' hi'))
    congr 1
    refine List.map_congr_left fun k hk => ?_
    rw [List.getD_eq_getElem?_getD, List.getD_eq_getElem?_getD, hfr k (h k hk)]

/-! ## Examples -/

/-- `s['a', 0] = v` and `s[f, 'a', 1] = w` for the repetitions of one entry, with any `v` and `w`: the first changes the first element
only, does not change what the index of the second reads, and they can be exchanged. -/
example (c : CS) (hc : CS.ofStruct groupStruct = .ok c) (x y z w : ℚ) (v v' : Pay ℚ) :
    (∀ k, k ≠ 0 → ((⟨c, [x, y, z, w], []⟩ : Obj ℚ).setitem [.str "a", .int 0] v).2.master[k]? = [x, y, z, w][k]?) ∧
    ((⟨c, [x, y, z, w], []⟩ : Obj ℚ).setitem [.str "a", .int 0] v).2.getitem [.str "a", .int 1] = .ok (.leaf ⟨.dense 1 1, [z]⟩) ∧
    (((⟨c, [x, y, z, w], []⟩ : Obj ℚ).setitem [.str "a", .int 0] v).2.setitem [.fn stackFn, .str "a", .int 1] v').2 =
      (((⟨c, [x, y, z, w], []⟩ : Obj ℚ).setitem [.fn stackFn, .str "a", .int 1] v').2.setitem [.str "a", .int 0] v).2 := by
  obtain ⟨c', hc', h2, hs, hj, -⟩ := groupStruct_i
  rw [hc] at hc'
  cases hc'
  have h0 : c.i (V := ℚ) [.str "a", .int 0] = .ok (.leaf ⟨.dense 1 1, [0]⟩) := hj 0 (by decide)
  have h1 : c.i (V := ℚ) [.str "a", .int 1] = .ok (.leaf ⟨.dense 1 1, [2]⟩) := hj 1 (by decide)
  refine ⟨fun k hk => ?_, ?_, ?_⟩
  · exact C105_frame groupStruct groupStruct_wf groupStruct_prims c hc [.str "a", .int 0] (by simp) _ h0 v _ _ k (by simpa [Tree.All] using hk)
  · rw [C105_read groupStruct groupStruct_wf groupStruct_prims c hc [.str "a", .int 0] [.str "a", .int 1] (by simp) (by simp) _ h0 (by
      intro ti' h
      rw [h1] at h
      cases h
      simp [Tree.All]) v [x, y, z, w] (by rw [hs]; rfl), (C100_read groupStruct groupStruct_wf groupStruct_prims c hc [x, y, z, w] (by rw [hs]; rfl) _
        (by simp)).1, h1]
    rfl
  · obtain ⟨o, h3, h4⟩ := C105_commute groupStruct groupStruct_wf groupStruct_prims c hc [.str "a", .int 0]
      [.fn stackFn, .str "a", .int 1] (by simp) (by
        intro f hf
        have : f = stackFn := by simpa using hf
        rw [this]
        exact stackFn_ok.1) _ _ h0 h1 (by
        intro k
        simp only [Tree.All, List.mem_singleton]
        omega) v v' [x, y, z, w] []
    rw [h3, h4]

/-- The restriction to structs without entries of type 'symm' is needed: the stored elements of a symmetric matrix are those of its upper
triangle, `s.i['P', 1, 0]` contains none of them, and `s['P', 1, 0] = 5` changes the element (0, 1). -/
theorem C105_symm : ∃ (s : Struct) (c : CS) (i : IMat), WFs s.entries s.order ∧ CS.ofStruct s = .ok c ∧
    c.i (V := ℚ) [.str "P", .int 1, .int 0] = .ok (.leaf i) ∧ i.data = [] ∧
    (⟨c, [1, 2, 3], []⟩ : Obj ℚ).setitem [.str "P", .int 1, .int 0] (.num 5) = (.ok (), ⟨c, [1, 5, 3], []⟩) := by
  obtain ⟨c, h1, h2, hb⟩ := oneStruct_built symm2_canon
  have hwf' : WFs c.struct.entries c.struct.order := by rw [h2]; exact oneStruct_wf symm2_canon
  have hl : IsLeaf c.struct.entries [.str "P"] symm2 := by rw [h2]; exact oneStruct_leaf _
  obtain ⟨pre, post, h3, hg⟩ := hb.leaf_get hwf' hl
  obtain rfl : pre = [] := by
    have := congrArg List.length h3
    simp only [List.length_append, List.length_cons, List.length_nil] at this
    exact List.eq_nil_of_length_eq_zero (by omega)
  have hg : dictGet c.map [.str "P"] = some ⟨symm2.sp, [0, 1, 2]⟩ := hg
  have e1 := goStruct_leaf (imDisp (V := ℚ) c.map) hwf' hl c.struct.keys [.int 1, .int 0] false [] .none
  have e2 := goStruct_leaf (setDispOn (V := ℚ) assign c.map) hwf' hl c.struct.keys [.int 1, .int 0] false [] (.num 5)
  refine ⟨_, c, ⟨⟨1, 1, []⟩, []⟩, oneStruct_wf symm2_canon, h1, ?_, rfl, ?_⟩
  · have e1' := congrFun e1 ()
    rw [CS.i, Struct.traverse_fst]
    refine (congrArg (fun x => gen x.1) e1').trans ?_
    simp only [callLeaf, imDisp, imCall, ex, M.lift, M.bind, M.pure, hg, List.nil_append]
    rfl
  · rw [Obj.setitem_on, setitemOn_eq, Struct.traverse_fst]
    have e2' := congrFun e2 [1, 2, 3]
    have e3 : goStruct (setDispOn (V := ℚ) assign c.map) c.struct.keys (travTable (setDispOn assign c.map) c.struct.entries)
        [.str "P", .int 1, .int 0] false [] (.num 5) [1, 2, 3] = (.ok (.leaf none), [1, 5, 3]) := by
      have e4 : setCallOn (V := ℚ) assign c.map (.num 5) [.str "P"] (some [.int 1, .int 0]) (some symm2) [1, 2, 3] =
          (.ok (), [1, 5, 3]) := by
        unfold setCallOn
        rw [hg]
        rfl
      refine e2'.trans ?_
      change M.bind (M.bind (setCallOn (V := ℚ) assign c.map (.num 5) [.str "P"] (some [.int 1, .int 0]) (some symm2))
        fun _ => M.pure none) (fun r => M.pure (Tree.leaf r)) [1, 2, 3] = _
      simp only [M.bind, e4]
      rfl
    rw [e3]
    rfl

end CE.St
