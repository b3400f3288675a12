import Verif.Struct.PropsLayout

/-! # Reading and writing at index matrices -/

namespace CE.St

variable {V : Type}

theorem masterAt_ok {master : List V} {k : ℕ} {v : V} (h : master[k]? = some v) : masterAt master k = .ok v := by
  rw [masterAt, h]

theorem except_mapM_ok {α β : Type} (l : List α) (f : α → Except PyErr β) (g : α → β) (h : ∀ a ∈ l, f a = .ok (g a)) :
    l.mapM f = .ok (l.map g) := by
  induction l with
  | nil => rfl
  | cons a l ih =>
    rw [List.mapM_cons, h a List.mem_cons_self, ih fun b hb => h b (List.mem_cons_of_mem _ hb)]
    rfl

theorem gather_ok [Zero V] {master : List V} {i : IMat} (h : ∀ k ∈ i.data, k < master.length) :
    gather master i = .ok ⟨i.sp, i.data.map fun k => master.getD k 0⟩ := by
  rw [gather, except_mapM_ok _ _ (fun k => master.getD k 0)]
  · rfl
  · intro k hk
    apply masterAt_ok
    rw [List.getD_eq_getElem?_getD, List.getElem?_eq_getElem (h k hk)]
    rfl

theorem writeAll_length (m : List V) (l : List (ℕ × V)) : (writeAll m l).length = m.length := by
  induction l generalizing m with
  | nil => rfl
  | cons x l ih => rw [writeAll, ih, List.length_set]

theorem writeAll_notin (m : List V) (l : List (ℕ × V)) {k : ℕ} (h : k ∉ l.map (·.1)) : (writeAll m l)[k]? = m[k]? := by
  induction l generalizing m with
  | nil => rfl
  | cons x l ih =>
    rw [List.map_cons, List.mem_cons, not_or] at h
    rw [writeAll, ih _ h.2, List.getElem?_set_ne (Ne.symm h.1)]

theorem writeAll_in (m : List V) (l : List (ℕ × V)) (hn : (l.map (·.1)).Nodup) {k : ℕ} {v : V} (h : (k, v) ∈ l)
    (hk : k < m.length) : (writeAll m l)[k]? = some v := by
  induction l generalizing m with
  | nil => cases h
  | cons x l ih =>
    rw [List.map_cons, List.nodup_cons] at hn
    rw [writeAll]
    rcases List.mem_cons.1 h with rfl | h
    · rw [writeAll_notin _ _ hn.1, List.getElem?_set_self hk]
    · exact ih _ hn.2 h (by rwa [List.length_set])

theorem writeAll_map (m : List V) (d : List ℕ) (vs : List V) (hn : d.Nodup) (hl : vs.length = d.length)
    (hk : ∀ k ∈ d, k < m.length) (z : V) : d.map (fun k => (writeAll m (d.zip vs)).getD k z) = vs := by
  apply List.ext_getElem?
  intro j
  rw [List.getElem?_map]
  by_cases hj : j < d.length
  · have hj' : j < vs.length := by omega
    rw [List.getElem?_eq_getElem hj, List.getElem?_eq_getElem hj', Option.map_some, List.getD_eq_getElem?_getD]
    rw [writeAll_in (v := vs[j]) m (d.zip vs) (by rw [List.map_fst_zip (by omega)]; exact hn) ?_ (hk _ (List.getElem_mem _))]
    · rfl
    · have : (d.zip vs)[j]'(by rw [List.length_zip]; omega) = (d[j], vs[j]) := List.getElem_zip
      rw [← this]
      exact List.getElem_mem _
  · rw [List.getElem?_eq_none (by omega), List.getElem?_eq_none (by omega)]
    rfl

section
variable [Zero V]

/-- The values that `master[i] = m` writes. -/
def written (i : IMat) (m : SMat V) : Option (List V) :=
  if i.sp.rows = m.sp.rows ∧ i.sp.cols = m.sp.cols then some (i.sp.nz.map m.at')
  else if m.isScalar then some (i.sp.nz.map fun _ => m.at' (0, 0))
  else if i.sp.rows = m.sp.cols ∧ i.sp.cols = m.sp.rows ∧ min m.sp.rows m.sp.cols = 1 then some (i.sp.nz.map m.T.at')
  else none

theorem written_length {i : IMat} {m : SMat V} {vs : List V} (h : written i m = some vs) : vs.length = i.sp.nz.length := by
  unfold written at h
  split at h
  · cases h; simp
  · split at h
    · cases h; simp
    · split at h
      · cases h; simp
      · cases h

theorem zip_const {α β γ : Type} (l : List α) (l' : List β) (h : l.length = l'.length) (v : γ) :
    l.zip (l'.map fun _ => v) = l.map fun k => (k, v) := by
  induction l generalizing l' with
  | nil => simp
  | cons a l ih => cases l' with
    | nil => cases h
    | cons b l' => rw [List.map_cons, List.zip_cons_cons, ih l' (by simpa using h), List.map_cons]

theorem assign_eq {master : List V} {i : IMat} {m : SMat V} (hi : i.data.length = i.sp.nz.length)
    (hk : ∀ k ∈ i.data, k < master.length) :
    assign master i m = match written i m with
      | some vs => .ok (writeAll master (i.data.zip vs))
      | none => .error .runtime := by
  have h1 : i.data.any (fun k => decide (k ≥ master.length)) = false := by
    rw [List.any_eq_false]
    intro k hk'
    have := hk k hk'
    simp only [decide_eq_true_eq]; omega
  unfold assign written
  rw [h1, if_neg (by simp)]
  by_cases h2 : i.sp.rows = m.sp.rows ∧ i.sp.cols = m.sp.cols
  · simp only [if_pos h2]
  · simp only [if_neg h2]
    by_cases h3 : m.isScalar = true
    · simp only [if_pos h3]
      rw [zip_const _ _ hi]
    · simp only [if_neg h3]
      split <;> rfl

theorem assign_out {master : List V} {i : IMat} {m : SMat V} (h : written i m = none) :
    assign master i m = .error .runtime := by
  unfold written at h
  unfold assign
  split
  · rfl
  · split at h
    · cases h
    · split at h
      · cases h
      · split at h
        · cases h
        · simp only [*, if_false, Bool.false_eq_true]

/-- What a write changes, and that it can be read back. -/
theorem assign_spec {master : List V} {i : IMat} {m : SMat V} {vs : List V} (hi : i.data.length = i.sp.nz.length)
    (hn : i.data.Nodup) (hk : ∀ k ∈ i.data, k < master.length) (hv : written i m = some vs) :
    ∃ master', assign master i m = .ok master' ∧ master'.length = master.length ∧
      gather master' i = .ok ⟨i.sp, vs⟩ ∧ ∀ k ∉ i.data, master'[k]? = master[k]? := by
  have hl := written_length hv
  refine ⟨writeAll master (i.data.zip vs), by rw [assign_eq hi hk, hv], writeAll_length _ _, ?_, ?_⟩
  · rw [gather_ok (by rw [writeAll_length]; exact hk), writeAll_map _ _ _ hn (by omega) hk]
  · intro k hk'
    exact writeAll_notin _ _ (by rwa [List.map_fst_zip (by omega)])

theorem gather_congr {m1 m2 : List V} {i : IMat} (h : ∀ k ∈ i.data, m1[k]? = m2[k]?) : gather m1 i = gather m2 i := by
  have : ∀ l : List ℕ, (∀ k ∈ l, m1[k]? = m2[k]?) → l.mapM (masterAt m1) = l.mapM (masterAt m2) := by
    intro l
    induction l with
    | nil => intro _; rfl
    | cons k l ih =>
      intro h
      rw [List.mapM_cons, List.mapM_cons, ih fun b hb => h b (List.mem_cons_of_mem _ hb), masterAt, masterAt,
        h k List.mem_cons_self]
  rw [gather, gather, this _ h]

end

/-! ## Parts -/

/-- The index matrix of a part. -/
theorem Built.part {c : CS} {ls} (hb : Built c ls) (hwf : WFs c.struct.entries c.struct.order) {a e sp}
    (h : IsPart c.struct.entries a e sp) :
    ∃ m : IMat, dictGet c.map a = some m ∧ m.WF ∧ m.data.Nodup ∧ (∀ k ∈ m.data, k < c.size) ∧ m.sp = sp := by
  cases h with
  | @leaf p h =>
    obtain ⟨pre, post, e, hg⟩ := hb.leaf_get hwf h
    refine ⟨_, hg, ⟨h.canon hwf, by rw [block_length]; rfl⟩, block_nodup _ _, ?_, rfl⟩
    intro k hk
    have := mem_block.1 hk
    rw [hb.size, e]
    simp only [sizeOf', List.map_append, List.map_cons, List.sum_append, List.sum_cons] at this ⊢
    omega
  | @node es' o' d p h hd =>
    obtain ⟨ls', hk, hl⟩ := exists_leaves (h.wf hwf)
    obtain ⟨pre, post, hs⟩ := hb.node_split hwf h hk hl
    have hne : ls' ≠ [] := by
      rintro rfl
      have : d ∈ leafList es' o' := (mem_leafList (h.wf hwf)).2 ⟨p, hd⟩
      rw [← hk] at this
      cases this
    have hg := hb.node_get hwf h hk hl hs
    rw [if_neg hne] at hg
    refine ⟨_, hg, ⟨Sparsity.dense_canon _ _, ?_⟩, block_nodup _ _, ?_, ?_⟩
    · rw [SMat.col, Sparsity.dense, Sparsity.positions_length, Nat.mul_one]
    · intro k hk
      have := mem_block.1 hk
      rw [hb.size, hs]
      have h2 : sizeOf' (ls'.map fun x => (a ++ x.1, x.2)) = sizeOf' ls' := by
        simp [sizeOf', Function.comp_def]
      simp only [sizeOf', List.map_append, List.sum_append] at this h2 ⊢
      omega
    · rw [sizeOf'_eq_wsum (h.wf hwf) hl, hk, wsum_leafList (h.wf hwf), SMat.col, block_length]

/-- A position belongs to a part iff it belongs to an element below it. -/
theorem Built.part_mem {c : CS} {ls} (hb : Built c ls) (hwf : WFs c.struct.entries c.struct.order) {a e sp}
    (h : IsPart c.struct.entries a e sp) {m : IMat} (hm : dictGet c.map a = some m) {k : ℕ} (hk : k ∈ m.data) :
    ∃ pre x post j, ls = pre ++ x :: post ∧ j < x.2.nnz ∧ k = sizeOf' pre + j ∧ a <+: x.1 := by
  cases h with
  | @leaf p h =>
    obtain ⟨pre, post, e, hg⟩ := hb.leaf_get hwf h
    rw [hg] at hm
    cases hm
    have := mem_block.1 hk
    exact ⟨pre, _, post, k - sizeOf' pre, e, by simp only at this ⊢; omega, by omega, List.prefix_refl _⟩
  | @node es' o' d p h hd =>
    obtain ⟨ls', hk', hl⟩ := exists_leaves (h.wf hwf)
    obtain ⟨pre, post, hs⟩ := hb.node_split hwf h hk' hl
    have hg := hb.node_get hwf h hk' hl hs
    split at hg
    · rw [hg] at hm; cases hm
    · rw [hg] at hm
      cases hm
      have := mem_block.1 hk
      obtain ⟨p1, x, p2, j, e, hj, hkj⟩ := exists_elem (ls := ls') (k := k - sizeOf' pre) (by omega)
      refine ⟨pre ++ p1.map (fun x => (a ++ x.1, x.2)), (a ++ x.1, x.2), p2.map (fun x => (a ++ x.1, x.2)) ++ post, j, ?_, hj,
        ?_, List.prefix_append _ _⟩
      · rw [hs, e]; simp
      · have h2 : sizeOf' (p1.map fun x => (a ++ x.1, x.2)) = sizeOf' p1 := by
          simp [sizeOf', Function.comp_def]
        have h3 : sizeOf' (pre ++ p1.map fun x => (a ++ x.1, x.2)) = sizeOf' pre + sizeOf' p1 := by
          rw [← h2]; simp [sizeOf']
        omega

/-- Parts neither of which is below the other are disjoint. -/
theorem Built.part_disjoint {c : CS} {ls} (hb : Built c ls) (hwf : WFs c.struct.entries c.struct.order) {a e sp b e' sp'}
    (h : IsPart c.struct.entries a e sp) (h' : IsPart c.struct.entries b e' sp') (hab : ¬ a <+: b) (hba : ¬ b <+: a) {m m' : IMat}
    (hm : dictGet c.map a = some m) (hm' : dictGet c.map b = some m') {k : ℕ} (hk : k ∈ m.data) : k ∉ m'.data := by
  intro hk'
  obtain ⟨pre, x, post, j, e1, hj, hkj, ha⟩ := hb.part_mem hwf h hm hk
  obtain ⟨pre', x', post', j', e1', hj', hkj', ha'⟩ := hb.part_mem hwf h' hm' hk'
  obtain ⟨rfl, _, _⟩ := elem_unique e1 e1' hj hj' (hkj.symm.trans hkj')
  rcases List.prefix_or_prefix_of_prefix ha ha' with h | h
  · exact hab h
  · exact hba h

/-! ## Traversals to parts -/

section
variable {σ F R : Type}

/-- A canonical index of a part leads to the dispatcher call. -/
theorem goStruct_part (d : Disp σ V F R) {es o a e sp} (hwf : WFs es o) (h : IsPart es a e sp) (keys : List String)
    (inner : Bool) (c : CIdx) (pay : Pay V) :
    goStruct d keys (travTable d es) (a.map .ofKey) inner c pay = callLeaf d inner pay (c ++ a) [] e := by
  cases h with
  | leaf h =>
    have := goStruct_leaf d hwf h keys [] inner c pay
    rwa [List.append_nil] at this
  | node h _ =>
    have := goStruct_node d hwf h keys [] inner c pay
    rw [List.append_nil] at this
    rw [this, goStruct]
    rfl

theorem goStruct_part_extra (d : Disp σ V F R) {es o a e sp} (hwf : WFs es o) (h : IsPart es a e sp) (keys : List String)
    (extra : List (PIdx F)) (hx : e = none → extra = []) (inner : Bool) (c : CIdx) (pay : Pay V) :
    goStruct d keys (travTable d es) (a.map .ofKey ++ extra) inner c pay = callLeaf d inner pay (c ++ a) extra e := by
  cases h with
  | leaf h => exact goStruct_leaf d hwf h keys extra inner c pay
  | node h hd =>
    rw [hx rfl, List.append_nil]
    exact goStruct_part d hwf (.node h hd) keys inner c pay

end

theorem extra_getD {α : Type} (x : List α) : (if x.isEmpty then none else some x).getD [] = x := by cases x <;> rfl

/-- The result of an exception-mapping traversal. -/
def gen {α : Type} : Except PyErr α → Except PyErr α
  | .ok a => .ok a
  | .error _ => .error .generic

theorem CS.i_part (c : CS) (hwf : WFs c.struct.entries c.struct.order) {a e sp} (h : IsPart c.struct.entries a e sp)
    (x : List (PIdx (PyFn V))) (hx : e = none → x = []) :
    c.i (a.map .ofKey ++ x) = (gen (imCall applyIdx c.map a (some x) e)).map .leaf := by
  have := goStruct_part_extra (imDisp (V := V) c.map) hwf h c.struct.keys x hx false [] .none
  rw [List.nil_append] at this
  rw [CS.i, Struct.traverse, this, callLeaf]
  simp only [imDisp, imCall, ex, M.lift, M.bind, M.pure, extra_getD, Option.getD_some]
  cases dictGet c.map a with
  | none => rfl
  | some m =>
    simp only
    cases performExtraIndex applyIdx m e false x <;> rfl

section
variable [Zero V]

theorem getCall_extra [Add V] [Sub V] (map : List (CIdx × IMat)) (prio : List (CIdx × SMat V)) (master : List V) (c : CIdx)
    (x : List (PIdx (PyFn V))) (e : Option Prim) :
    getCall map prio master c (if x.isEmpty then none else some x) e = getCall map prio master c (some x) e := by
  cases x <;> rfl

theorem setCall_extra (map : List (CIdx × IMat)) (pay : Pay V) (c : CIdx)
    (x : List (PIdx (PyFn V))) (e : Option Prim) :
    setCall map pay c (if x.isEmpty then none else some x) e = setCall map pay c (some x) e := by
  cases x <;> rfl

theorem Obj.getitem_part [Add V] [Sub V] (o : Obj V) (hwf : WFs o.cs.struct.entries o.cs.struct.order) {a e sp}
    (h : IsPart o.cs.struct.entries a e sp) (x : List (PIdx (PyFn V))) (hx : e = none → x = []) :
    o.getitem (a.map .ofKey ++ x) = (gen (getCall o.cs.map o.prio o.master a (some x) e)).map .leaf := by
  have := goStruct_part_extra (getDisp o.cs.map o.prio o.master) hwf h o.cs.struct.keys x hx false [] .none
  rw [List.nil_append] at this
  rw [Obj.getitem, Struct.traverse, this, callLeaf]
  simp only [getDisp, ex, M.lift, M.bind, M.pure, getCall_extra]
  cases getCall o.cs.map o.prio o.master a (some x) e <;> rfl

theorem Obj.setitem_part (o : Obj V) (hwf : WFs o.cs.struct.entries o.cs.struct.order) {a e sp}
    (h : IsPart o.cs.struct.entries a e sp) (x : List (PIdx (PyFn V))) (hx : e = none → x = []) (pay : Pay V) :
    o.setitem (a.map .ofKey ++ x) pay =
      (gen (setCall o.cs.map pay a (some x) e o.master).1, { o with master := (setCall o.cs.map pay a (some x) e o.master).2 }) := by
  have := goStruct_part_extra (setDisp o.cs.map) hwf h o.cs.struct.keys x hx false [] pay
  rw [List.nil_append] at this
  rw [Obj.setitem, Struct.traverse, this, callLeaf]
  simp only [setDisp, M.bind, M.pure, setCall_extra, Bool.false_eq_true, if_false]
  rcases setCall o.cs.map pay a (some x) e o.master with ⟨r, m⟩
  cases r <;> rfl

end

end CE.St
