import Verif.Struct.PropsPrio

/-! # Definition of structs (C57) -/

namespace CE.St

variable {V : Type}

/-! ## Errors -/

/-- **C57** (duplicates): two entries of the same name raise, whatever the order. -/
theorem C57_duplicate (arg : List Item) (order : Option (List OrderItem))
    (h : ¬ ((arg.flatMap Item.entries).map Entry.name).Nodup) : CS.ofList arg order = .error .generic := by
  unfold CS.ofList entryList
  simp only
  split
  · rename_i h1
    split at h1
    · cases h1; rfl
    · cases h1; rfl
  · rename_i h1
    split at h1
    · simp at h1
    · simp at h1

/-- **C57** (unknown names): an order with a name, alone or in a tuple, that no entry has raises. -/
theorem C57_unknown (arg : List Item) (order : List OrderItem) (i : OrderItem) (hi : i ∈ order) (n : String) (hn : n ∈ i.names)
    (h : ∀ e ∈ arg.flatMap Item.entries, e.name ≠ n) : CS.ofList arg (some order) = .error .generic := by
  have hnew : Struct.new (arg.flatMap Item.entries) (some order) = .error .generic := by
    unfold Struct.new
    simp only [Option.getD_some]
    rw [if_neg]
    intro hall
    rw [List.all_eq_true] at hall
    have h1 := hall i hi
    rw [List.all_eq_true] at h1
    have h2 := h1 n hn
    cases hd : dictEntry (arg.flatMap Item.entries) n with
    | none => rw [hd] at h2; simp at h2
    | some e => exact h e (dictEntry_some hd).1 (dictEntry_some hd).2
  unfold CS.ofList
  cases he : entryList arg (some order) with
  | error e =>
    unfold entryList at he
    simp only at he
    split at he
    · cases he; rfl
    · split at he
      · cases he; rfl
      · simp at he
  | ok x =>
    unfold entryList at he
    simp only at he
    split at he
    · simp at he
    · split at he
      · simp at he
      · cases he
        show CS.new _ (some order) = _
        rw [CS.new, hnew]

/-- **C57** (two orders): tuples in the list of entries together with an order raise. -/
theorem C57_tuple (arg : List Item) (order : List OrderItem) (es : List Entry) (h : .tup es ∈ arg) :
    CS.ofList arg (some order) = .error .generic := by
  unfold CS.ofList entryList
  simp only
  rw [if_pos]
  refine ⟨rfl, ?_⟩
  rw [List.any_eq_true]
  exact ⟨_, h, rfl⟩

/-! ## Success -/

theorem Item.orderItem_names (i : Item) : i.orderItem.names = i.entries.map Entry.name := by
  cases i <;> rfl

/-- The default order names each entry once. -/
theorem default_names (arg : List Item) :
    (arg.map Item.orderItem).flatMap OrderItem.names = (arg.flatMap Item.entries).map Entry.name := by
  rw [flatMap_map', List.map_flatMap]
  exact List.flatMap_congr fun i _ => i.orderItem_names

theorem ofList_ok {arg : List Item} {order : Option (List OrderItem)}
    (h1 : order.isSome → ∀ es, Item.tup es ∉ arg) (hn : ((arg.flatMap Item.entries).map Entry.name).Nodup)
    (hall : ∀ i ∈ order.getD (arg.map Item.orderItem), ∀ n ∈ i.names, ∃ e ∈ arg.flatMap Item.entries, e.name = n) :
    CS.ofList arg order = CS.ofStruct ⟨arg.flatMap Item.entries, order.getD (arg.map Item.orderItem)⟩ := by
  have he : entryList arg order = .ok (arg.flatMap Item.entries, order.getD (arg.map Item.orderItem)) := by
    unfold entryList
    simp only
    rw [if_neg, if_neg (not_not.2 hn)]
    rintro ⟨h2, h3⟩
    rw [List.any_eq_true] at h3
    obtain ⟨i, hi, h3⟩ := h3
    cases i with
    | one e => simp at h3
    | tup es => exact h1 h2 es hi
  unfold CS.ofList
  rw [he]
  show CS.new _ (some _) = _
  unfold CS.new Struct.new
  simp only [Option.getD_some]
  rw [if_pos]
  rw [List.all_eq_true]
  intro i hi
  rw [List.all_eq_true]
  intro n hn'
  obtain ⟨e, he, rfl⟩ := hall i hi n hn'
  rw [dictEntry_of_mem hn he]
  rfl

theorem ofList_built (arg : List Item) (order : Option (List OrderItem))
    (hn : ((arg.flatMap Item.entries).map Entry.name).Nodup)
    (ho : ∀ o, order = some o → (∀ es, Item.tup es ∉ arg) ∧
      (o.flatMap OrderItem.names).Perm ((arg.flatMap Item.entries).map Entry.name))
    (hcanon : ∀ n d p, Entry.prim n d p ∈ arg.flatMap Item.entries → p.sp.Canon)
    (hsub : ∀ n d es o, Entry.nested n d es o ∈ arg.flatMap Item.entries → WFs es o) :
    ∃ c ls, CS.ofList arg order = .ok c ∧ c.struct = ⟨arg.flatMap Item.entries, order.getD (arg.map Item.orderItem)⟩ ∧
      WFs c.struct.entries c.struct.order ∧ Built c ls ∧ CS.ofStruct c.struct = .ok c := by
  have hperm : ((order.getD (arg.map Item.orderItem)).flatMap OrderItem.names).Perm ((arg.flatMap Item.entries).map Entry.name) := by
    cases order with
    | none => rw [Option.getD_none, default_names]
    | some o => exact (ho o rfl).2
  have hwf : WFs (arg.flatMap Item.entries) (order.getD (arg.map Item.orderItem)) := .mk hn hperm hcanon hsub
  have heq := ofList_ok (arg := arg) (order := order)
    (by
      intro h1
      obtain ⟨o, rfl⟩ := Option.isSome_iff_exists.1 h1
      exact (ho o rfl).1) hn (by
      intro i hi n hni
      have : n ∈ (arg.flatMap Item.entries).map Entry.name := hperm.mem_iff.1 (List.mem_flatMap.2 ⟨i, hi, hni⟩)
      obtain ⟨e, he, rfl⟩ := List.mem_map.1 this
      exact ⟨e, he, rfl⟩)
  obtain ⟨c, ls, h1, h2, hb⟩ := ofStruct_built (s := ⟨arg.flatMap Item.entries, order.getD (arg.map Item.orderItem)⟩) hwf
  have hwf' : WFs c.struct.entries c.struct.order := by rw [h2]; exact hwf
  exact ⟨c, ls, heq.trans h1, h2, hwf', hb, by rw [h2]; exact h1⟩

/-- **C57** (valid definitions): entries with distinct names (whose patterns are canonical and whose structs are well-formed)
define a struct, with the default order or an order that names each entry once; its elements are exactly those of the entries. -/
theorem C57_valid_partial (arg : List Item) (order : Option (List OrderItem))
    (hn : ((arg.flatMap Item.entries).map Entry.name).Nodup)
    (ho : ∀ o, order = some o → (∀ es, Item.tup es ∉ arg) ∧
      (o.flatMap OrderItem.names).Perm ((arg.flatMap Item.entries).map Entry.name))
    (hcanon : ∀ n d p, Entry.prim n d p ∈ arg.flatMap Item.entries → p.sp.Canon)
    (hsub : ∀ n d es o, Entry.nested n d es o ∈ arg.flatMap Item.entries → WFs es o) :
    ∃ c, CS.ofList arg order = .ok c ∧ c.struct = ⟨arg.flatMap Item.entries, order.getD (arg.map Item.orderItem)⟩ ∧
      WFs c.struct.entries c.struct.order ∧ c.size = countAll (arg.flatMap Item.entries) ∧
      ∀ e ∈ arg.flatMap Item.entries, ∀ ks, InDims ks e.dims → (.str e.name :: ks) ∈ c.struct.traverseCanonicalIndex 1 := by
  obtain ⟨c, ls, h1, h2, hwf', hb, _⟩ := ofList_built arg order hn ho hcanon hsub
  refine ⟨c, h1, h2, hwf', ?_, ?_⟩
  · rw [hb.size_eq hwf', h2]
  · intro e he ks hks
    rw [traverseCanonicalIndex_one]
    exact (mem_tops hwf').2 ⟨e, by rw [h2]; exact he, ks, hks, rfl⟩

/-! ## Orders that are accepted although they omit or repeat an entry -/

theorem itemCan_congr {es es' : List Entry} {i : OrderItem} (h : ∀ n ∈ i.names, dictEntry es n = dictEntry es' n) :
    itemCan es i = itemCan es' i := by
  cases i with
  | one n => rw [itemCan, itemCan, h n (by simp [OrderItem.names])]
  | tup ns =>
    rw [itemCan, itemCan]
    congr 2
    apply List.map_congr_left
    intro n hn
    rw [h n hn]

theorem run_congr {s s' : Struct} (is : List CIdx) (h : ∀ i ∈ is, s.entryByCanonical i = s'.entryByCanonical i) (b : Build) :
    Build.run s is b = Build.run s' is b := by
  induction is generalizing b with
  | nil => rfl
  | cons i is ih =>
    rw [Build.run, Build.run, h i List.mem_cons_self]
    cases s'.entryByCanonical i with
    | error e => rfl
    | ok e => exact ih (fun j hj => h j (List.mem_cons_of_mem _ hj)) _

/-- **C57 fails** for orders that omit entries: an order that names some of the entries is accepted, and the struct has only
the elements of these. -/
theorem C57_refuted_omit (es : List Entry) (order : List OrderItem) (hn : (es.map Entry.name).Nodup)
    (ho : (order.flatMap OrderItem.names).Nodup) (hin : ∀ n ∈ order.flatMap OrderItem.names, ∃ e ∈ es, e.name = n)
    (hcanon : ∀ n d p, Entry.prim n d p ∈ es → p.sp.Canon) (hsub : ∀ n d es' o, Entry.nested n d es' o ∈ es → WFs es' o) :
    ∃ c, CS.ofList (es.map .one) (some order) = .ok c ∧ c.struct.entries = es ∧
      c.size = countAll (es.filter fun e => e.name ∈ order.flatMap OrderItem.names) ∧
      ∀ e ∈ es, e.name ∉ order.flatMap OrderItem.names → ∀ ks, dictGet c.map (.str e.name :: ks) = none := by
  have hent : (es.map Item.one).flatMap Item.entries = es := by
    rw [flatMap_map']
    show es.flatMap (fun e => [e]) = es
    simp
  have hsubl : (es.filter fun e => e.name ∈ order.flatMap OrderItem.names).Sublist es := List.filter_sublist
  have hn' : ((es.filter fun e => e.name ∈ order.flatMap OrderItem.names).map Entry.name).Nodup := hn.sublist (hsubl.map _)
  have hwf : WFs (es.filter fun e => e.name ∈ order.flatMap OrderItem.names) order := by
    refine .mk hn' ?_ (fun n d p h => hcanon n d p (hsubl.subset h)) (fun n d es' o h => hsub n d es' o (hsubl.subset h))
    refine (List.perm_ext_iff_of_nodup ho hn').2 fun n => ?_
    rw [List.mem_map]
    constructor
    · intro h
      obtain ⟨e, he, rfl⟩ := hin n h
      exact ⟨e, List.mem_filter.2 ⟨he, by simpa using h⟩, rfl⟩
    · rintro ⟨e, he, rfl⟩
      simpa using (List.mem_filter.1 he).2
  have hdict : ∀ n ∈ order.flatMap OrderItem.names,
      dictEntry es n = dictEntry (es.filter fun e => e.name ∈ order.flatMap OrderItem.names) n := by
    intro n h
    obtain ⟨e, he, rfl⟩ := hin n h
    rw [dictEntry_of_mem hn he, dictEntry_of_mem hn' (List.mem_filter.2 ⟨he, by simpa using h⟩)]
  obtain ⟨c, ls, h1, h2, hb⟩ := ofStruct_built (s := ⟨_, _⟩) hwf
  have hwf' : WFs c.struct.entries c.struct.order := by rw [h2]; exact hwf
  have hsame : CS.ofStruct ⟨es, order⟩ = .ok { c with struct := ⟨es, order⟩ } := by
    unfold CS.ofStruct at h1 ⊢
    have htr : Struct.traverseCanonicalIndex ⟨es, order⟩ =
        Struct.traverseCanonicalIndex ⟨es.filter fun e => e.name ∈ order.flatMap OrderItem.names, order⟩ := by
      rw [traverseCanonicalIndex_eq, traverseCanonicalIndex_eq, leafList_eq, leafList_eq]
      exact List.flatMap_congr fun i hi => itemCan_congr fun n hni => hdict n (List.mem_flatMap.2 ⟨i, hi, hni⟩)
    rw [htr, run_congr (s' := ⟨es.filter fun e => e.name ∈ order.flatMap OrderItem.names, order⟩)]
    · cases hr : Build.run ⟨es.filter fun e => e.name ∈ order.flatMap OrderItem.names, order⟩
        (Struct.traverseCanonicalIndex ⟨es.filter fun e => e.name ∈ order.flatMap OrderItem.names, order⟩) {} with
      | error e => rw [hr] at h1; simp at h1
      | ok b =>
        rw [hr] at h1
        simp only [Except.ok.injEq] at h1 ⊢
        rw [← h1]
    · intro i hi
      rw [traverseCanonicalIndex_eq] at hi
      obtain ⟨p, hp⟩ := (mem_leafList hwf).1 hi
      have : ∃ n i', i = .str n :: i' ∧ n ∈ order.flatMap OrderItem.names := by
        cases hp with
        | prim he _ => exact ⟨_, _, rfl, by simpa [Entry.name] using (List.mem_filter.1 he).2⟩
        | nested he _ _ => exact ⟨_, _, rfl, by simpa [Entry.name] using (List.mem_filter.1 he).2⟩
      obtain ⟨n, i', rfl, hmem⟩ := this
      rw [Struct.entryByCanonical, Struct.entryByCanonical, strings_str, entryByPath, entryByPath, hdict n hmem]
  refine ⟨{ c with struct := ⟨es, order⟩ }, ?_, rfl, ?_, ?_⟩
  · rw [ofList_ok (fun _ es' h => by simp at h) (by rw [hent]; exact hn)]
    · rw [hent, Option.getD_some, hsame]
    · intro i hi n hni
      rw [hent]
      exact hin n (List.mem_flatMap.2 ⟨i, hi, hni⟩)
  · show c.size = _
    rw [hb.size_eq hwf', h2]
  · intro e he hne ks
    show dictGet c.map _ = none
    cases hg : dictGet c.map (.str e.name :: ks) with
    | none => rfl
    | some i =>
      obtain ⟨x, sp, hp⟩ := hb.get_part hwf' hg
      obtain ⟨t, ht, y, hy⟩ := hp.top hwf'
      obtain ⟨e', he', ks', _, rfl⟩ := (mem_tops hwf').1 ht
      rw [h2] at he'
      have hname : e'.name = e.name := by
        rw [List.cons_append] at hy
        injection hy with h3 _
        injection h3
      exfalso
      apply hne
      rw [← hname]
      simpa using (List.mem_filter.1 he').2

/-- **C57 fails** for orders that repeat an entry: the order `["P","P"]` is accepted; the struct has twice the size of the
entry, and the first half belongs to no entry. -/
theorem C57_refuted_repeat (p : Prim) :
    ∃ c, CS.ofList [.one (.prim "P" [] p)] (some [.one "P", .one "P"]) = .ok c ∧ c.size = p.sp.nnz + p.sp.nnz ∧
      c.map = [([.str "P"], ⟨p.sp, block p.sp.nnz p.sp.nnz⟩)] := by
  rw [ofList_ok (fun _ es h => by simp at h) (by simp [Item.entries]) (by
    intro i hi n hn
    have : i = .one "P" := by simpa using hi
    subst this
    have : n = "P" := by simpa [OrderItem.names] using hn
    subst this
    exact ⟨.prim "P" [] p, by simp [Item.entries], rfl⟩)]
  have htr : Struct.traverseCanonicalIndex ⟨[.prim "P" [] p], [.one "P", .one "P"]⟩ = [[.str "P"], [.str "P"]] := by
    rw [traverseCanonicalIndex_eq]
    rfl
  show ∃ c, CS.ofStruct ⟨[.prim "P" [] p], [.one "P", .one "P"]⟩ = .ok c ∧ _
  unfold CS.ofStruct
  rw [htr]
  have he : Struct.entryByCanonical ⟨[.prim "P" [] p], [.one "P", .one "P"]⟩ [.str "P"] = .ok (.prim "P" [] p) := rfl
  have hanc : (canonicalIndexAncestors [.str "P"]).tail = [] := by
    rw [ancestors_cons (by simp)]
    simp [ancestors_nil]
  rw [Build.run, he]
  simp only
  rw [Build.run, he]
  simp only
  rw [Build.run]
  refine ⟨_, rfl, ?_, ?_⟩
  · show 0 + _ + _ = _
    rw [Nat.zero_add]
    rfl
  · simp only [Build.step, hanc, List.foldl_nil, List.map_nil, dictUpdate]
    simp [dictSet, block, Entry.sparsity, Function.comp_def]

/-! ## Examples -/

/-- An order with a name that does not exist. -/
example (p q : Prim) : CS.ofList [.one (.prim "x" [] p), .one (.prim "y" [2] q)] (some [.one "y", .one "z"]) = .error .generic :=
  C57_unknown _ _ (.one "z") (by simp) "z" (by simp [OrderItem.names]) (by simp [Item.entries, Entry.name])

/-- Two entries `x`, one of them in a tuple. -/
example (p q : Prim) : CS.ofList [.one (.prim "x" [] p), .tup [.prim "y" [2] q, .prim "x" [] p]] = .error .generic :=
  C57_duplicate _ _ (by simp [Item.entries, Entry.name])

/-- Two entries, in the reverse order. -/
example : ∃ c, CS.ofList [.one (.prim "x" [] ⟨.dense 2 1, false, none, none⟩), .one (.prim "y" [3] ⟨.upper 2, false, none, none⟩)]
    (some [.one "y", .one "x"]) = .ok c ∧ c.size = 11 := by
  obtain ⟨c, h1, _, _, h2, _⟩ := C57_valid_partial [.one (.prim "x" [] ⟨.dense 2 1, false, none, none⟩),
    .one (.prim "y" [3] ⟨.upper 2, false, none, none⟩)] (some [.one "y", .one "x"]) (by simp [Item.entries, Entry.name])
    (by
      intro o ho
      cases ho
      exact ⟨by simp, List.Perm.swap _ _ _⟩)
    (by
      intro n d p h
      simp only [List.flatMap_cons, Item.entries, List.flatMap_nil, List.append_nil, List.singleton_append, List.mem_cons,
        Entry.prim.injEq, List.not_mem_nil, or_false] at h
      rcases h with ⟨_, _, rfl⟩ | ⟨_, _, rfl⟩
      · exact Sparsity.dense_canon _ _
      · exact Sparsity.ofPred_canon _ _ _)
    (by simp [Item.entries])
  exact ⟨c, h1, h2⟩

/-- An order that omits an entry: the struct has 2 elements instead of 11. -/
example : ∃ c, CS.ofList [.one (.prim "x" [] ⟨.dense 2 1, false, none, none⟩), .one (.prim "y" [3] ⟨.upper 2, false, none, none⟩)]
    (some [.one "x"]) = .ok c ∧ c.size = 2 := by
  obtain ⟨c, h1, _, h2, _⟩ := C57_refuted_omit [.prim "x" [] ⟨.dense 2 1, false, none, none⟩,
    .prim "y" [3] ⟨.upper 2, false, none, none⟩] [.one "x"] (by simp [Entry.name]) (by simp [OrderItem.names])
    (by simp [OrderItem.names, Entry.name])
    (by
      intro n d p h
      simp only [List.mem_cons, Entry.prim.injEq, List.not_mem_nil, or_false] at h
      rcases h with ⟨_, _, rfl⟩ | ⟨_, _, rfl⟩
      · exact Sparsity.dense_canon _ _
      · exact Sparsity.ofPred_canon _ _ _)
    (by simp)
  refine ⟨c, h1, ?_⟩
  rw [h2]
  rfl

/-- A tuple of entries together with an order. -/
example (p q : Prim) : CS.ofList [.tup [.prim "x" [2] p, .prim "y" [2] q]] (some [.one "y", .one "x"]) = .error .generic :=
  C57_tuple _ _ [.prim "x" [2] p, .prim "y" [2] q] (by simp)

end CE.St
