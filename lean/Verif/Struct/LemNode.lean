import Verif.Struct.LemTrav

/-! # Positions of elements and of nested structs -/

namespace CE.St

theorem infix_flatMap {α β : Type} {l : List α} (f : α → List β) {a : α} (h : a ∈ l) : f a <:+: l.flatMap f := by
  obtain ⟨s, t, rfl⟩ := List.append_of_mem h
  exact ⟨s.flatMap f, t.flatMap f, by simp⟩

theorem infix_flatten {β : Type} {l : List (List β)} {a : List β} (h : a ∈ l) : a <:+: l.flatten := by
  obtain ⟨s, t, rfl⟩ := List.append_of_mem h
  exact ⟨s.flatten, t.flatten, by simp⟩

/-- The block of one repetition of an entry is contiguous among the canonical indices of an entry. -/
theorem infix_can {e : Entry} {ks : CIdx} (h : InDims ks e.dims) :
    (e.kids.map fun c => Key.str e.name :: (ks ++ c)) <:+: e.can := by
  rw [Entry.can, entryCan_eq]
  exact infix_flatMap (fun ks => e.kids.map fun c => Key.str e.name :: (ks ++ c)) (mem_listindices.2 h)

theorem infix_canNest {e : Entry} {ks : CIdx} (h : InDims ks e.dims) :
    ∃ row ∈ e.canNest, (e.kids.map fun c => Key.str e.name :: (ks ++ c)) <:+: row := by
  have hm := mem_listindices.2 h
  rw [← listindicesNest_flatten] at hm
  obtain ⟨l, hl, hk⟩ := List.mem_flatten.1 hm
  rw [Entry.canNest, entryCanNest_eq]
  exact ⟨_, List.mem_map.2 ⟨l, hl, rfl⟩, infix_flatMap (fun ks => e.kids.map fun c => Key.str e.name :: (ks ++ c)) hk⟩

theorem infix_item {es : List Entry} (hn : (es.map Entry.name).Nodup) {e : Entry} (he : e ∈ es) {ks : CIdx}
    (h : InDims ks e.dims) {oi : OrderItem} (ho : e.name ∈ oi.names) :
    (e.kids.map fun c => Key.str e.name :: (ks ++ c)) <:+: itemCan es oi := by
  cases oi with
  | one n =>
    have : e.name = n := by simpa [OrderItem.names] using ho
    subst this
    rw [itemCan, dictEntry_of_mem hn he]
    exact infix_can h
  | tup ns =>
    rw [itemCan]
    obtain ⟨row, hr, hi⟩ := infix_canNest h
    refine hi.trans (infix_flatten ?_)
    rw [(intersperse_perm _).mem_iff, List.mem_flatten]
    refine ⟨e.canNest, List.mem_map.2 ⟨e.name, ho, ?_⟩, hr⟩
    rw [dictEntry_of_mem hn he]; rfl

theorem infix_leafList {es : List Entry} {o : List OrderItem} (hwf : WFs es o) {e : Entry} (he : e ∈ es) {ks : CIdx}
    (h : InDims ks e.dims) : (e.kids.map fun c => Key.str e.name :: (ks ++ c)) <:+: leafList es o := by
  have : e.name ∈ o.flatMap OrderItem.names := hwf.perm.mem_iff.2 (List.mem_map.2 ⟨e, he, rfl⟩)
  obtain ⟨oi, hoi, hn⟩ := List.mem_flatMap.1 this
  rw [leafList_eq]
  exact (infix_item hwf.nodup he h hn).trans (infix_flatMap (itemCan es) hoi)

theorem IsNode.wf {es o a es' o'} (hwf : WFs es o) (h : IsNode es a es' o') : WFs es' o' := by
  induction h generalizing o with
  | top he _ => exact hwf.sub _ _ _ _ he
  | nested he _ _ ih => exact ih (hwf.sub _ _ _ _ he)

/-- The elements of a nested struct are contiguous. -/
theorem IsNode.infix {es o a es' o'} (hwf : WFs es o) (h : IsNode es a es' o') :
    ((leafList es' o').map fun c => a ++ c) <:+: leafList es o := by
  induction h generalizing o with
  | @top es n dims es' o' ks he hks =>
    have := infix_leafList hwf he hks
    simpa [Entry.kids, leafList, Entry.name] using this
  | @nested es n dims es' o' ks c es'' o'' he hks hc ih =>
    have h1 := ih (hwf.sub _ _ _ _ he)
    have h2 := infix_leafList hwf he hks
    have h3 : (Entry.nested n dims es' o').kids = leafList es' o' := by simp [Entry.kids, leafList]
    rw [h3] at h2
    refine List.IsInfix.trans ?_ h2
    have := h1.map fun c => Key.str n :: (ks ++ c)
    simpa [Function.comp_def, Entry.name] using this

theorem IsNode.leaf {es a es' o' d p} (h : IsNode es a es' o') (hd : IsLeaf es' d p) : IsLeaf es (a ++ d) p := by
  induction h with
  | top he hks => simpa using IsLeaf.nested he hks hd
  | nested he hks _ ih => simpa using IsLeaf.nested he hks (ih hd)

/-- A node is determined by its index. -/
theorem IsNode.unique {es o a es1 o1} (hwf : WFs es o) (h : IsNode es a es1 o1) :
    ∀ {es2 o2}, IsNode es a es2 o2 → es1 = es2 ∧ o1 = o2 := by
  induction h generalizing o with
  | @top es n dims es' o' ks he hks =>
    intro es2 o2 h2
    generalize ha : Key.str n :: ks = a at h2
    cases h2 with
    | @top _ n' dims' _ _ ks' he' hks' =>
      have hn : n = n' := Key.str.inj (List.cons.inj ha).1
      cases eq_of_name hwf.nodup he he' hn
      exact ⟨rfl, rfl⟩
    | @nested _ n' dims' es3 o3 ks' c' _ _ he' hks' hc' =>
      have hn : n = n' := Key.str.inj (List.cons.inj ha).1
      cases eq_of_name hwf.nodup he he' hn
      have e' : Key.str n :: (ks ++ []) = Key.str n :: (ks' ++ c') := by simpa using ha
      obtain ⟨_, _, h3⟩ := str_append_inj hks hks' rfl e'
      obtain ⟨_, _, rfl⟩ := hc'.head
      cases h3
  | @nested es n dims es' o' ks c es'' o'' he hks hc ih =>
    intro es2 o2 h2
    generalize ha : Key.str n :: (ks ++ c) = a at h2
    cases h2 with
    | @top _ n' dims' _ _ ks' he' hks' =>
      have hn : n = n' := Key.str.inj (List.cons.inj ha).1
      cases eq_of_name hwf.nodup he he' hn
      have e' : Key.str n :: (ks ++ c) = Key.str n :: (ks' ++ []) := by simpa using ha
      obtain ⟨_, _, h3⟩ := str_append_inj hks hks' rfl e'
      obtain ⟨_, _, rfl⟩ := hc.head
      cases h3
    | @nested _ n' dims' es3 o3 ks' c' _ _ he' hks' hc' =>
      have hn : n = n' := Key.str.inj (List.cons.inj ha).1
      cases eq_of_name hwf.nodup he he' hn
      obtain ⟨_, _, rfl⟩ := str_append_inj hks hks' rfl ha
      exact ih (hwf.sub _ _ _ _ he) hc'

/-- A nested struct is not an element. -/
theorem IsNode.not_leaf {es o a es1 o1} (hwf : WFs es o) (h : IsNode es a es1 o1) : ∀ {p}, ¬ IsLeaf es a p := by
  induction h generalizing o with
  | @top es n dims es' o' ks he hks =>
    intro p h2
    generalize ha : Key.str n :: ks = a at h2
    cases h2 with
    | @prim _ n' dims' _ ks' he' hks' =>
      have hn : n = n' := Key.str.inj (List.cons.inj ha).1
      cases eq_of_name hwf.nodup he he' hn
    | @nested _ n' dims' es3 o3 ks' c' _ he' hks' hc' =>
      have hn : n = n' := Key.str.inj (List.cons.inj ha).1
      cases eq_of_name hwf.nodup he he' hn
      have e' : Key.str n :: (ks ++ []) = Key.str n :: (ks' ++ c') := by simpa using ha
      obtain ⟨_, _, h3⟩ := str_append_inj hks hks' rfl e'
      obtain ⟨_, _, rfl⟩ := hc'.head
      cases h3
  | @nested es n dims es' o' ks c es'' o'' he hks hc ih =>
    intro p h2
    generalize ha : Key.str n :: (ks ++ c) = a at h2
    cases h2 with
    | @prim _ n' dims' _ ks' he' hks' =>
      have hn : n = n' := Key.str.inj (List.cons.inj ha).1
      cases eq_of_name hwf.nodup he he' hn
    | @nested _ n' dims' es3 o3 ks' c' _ he' hks' hc' =>
      have hn : n = n' := Key.str.inj (List.cons.inj ha).1
      cases eq_of_name hwf.nodup he he' hn
      obtain ⟨_, _, rfl⟩ := str_append_inj hks hks' rfl ha
      exact ih (hwf.sub _ _ _ _ he) hc'

/-! ## Facts about a built struct -/

theorem nzCat_col (v : List IMat) : nzCat v = .col (v.flatMap fun m => m.data) := rfl

theorem layoutOf_map_snd_data (k : ℕ) (ls : List (CIdx × Sparsity)) :
    ((layoutOf k ls).map (·.2)).flatMap (fun m => m.data) = block k (sizeOf' ls) := by
  rw [List.flatMap_map]; exact layoutOf_data k ls

theorem layoutOf_prefix (k : ℕ) (a : CIdx) (ls : List (CIdx × Sparsity)) :
    layoutOf k (ls.map fun x => (a ++ x.1, x.2)) = (layoutOf k ls).map fun x => (a ++ x.1, x.2) := by
  induction ls generalizing k with
  | nil => rfl
  | cons x ls ih => simp [layoutOf, ih]

theorem sizeOf'_prefix (a : CIdx) (ls : List (CIdx × Sparsity)) :
    sizeOf' (ls.map fun x => (a ++ x.1, x.2)) = sizeOf' ls := by
  simp [sizeOf', Function.comp_def]

theorem sizeOf'_append (a b : List (CIdx × Sparsity)) : sizeOf' (a ++ b) = sizeOf' a + sizeOf' b := by
  simp [sizeOf']

/-- The elements with the same canonical indices have the same patterns. -/
theorem leaves_ext {es : List Entry} {o : List OrderItem} (hwf : WFs es o) :
    ∀ {l1 l2 : List (CIdx × Sparsity)}, l1.map (·.1) = l2.map (·.1) →
    (∀ x ∈ l1, ∃ p, IsLeaf es x.1 p ∧ x.2 = p.sp) → (∀ x ∈ l2, ∃ p, IsLeaf es x.1 p ∧ x.2 = p.sp) → l1 = l2 := by
  intro l1
  induction l1 with
  | nil => intro l2 h _ _; cases l2 with
    | nil => rfl
    | cons => cases h
  | cons x l1 ih =>
    intro l2 h h1 h2
    cases l2 with
    | nil => cases h
    | cons y l2 =>
      rw [List.map_cons, List.map_cons] at h
      obtain ⟨e1, e2⟩ := List.cons.inj h
      obtain ⟨p, hp, ep⟩ := h1 x List.mem_cons_self
      obtain ⟨q, hq, eq⟩ := h2 y List.mem_cons_self
      rw [← e1] at hq
      have : p = q := hp.unique hwf hq
      have hxy : x = y := Prod.ext e1 (by rw [ep, eq, this])
      rw [hxy, ih e2 (fun z hz => h1 z (List.mem_cons_of_mem _ hz)) (fun z hz => h2 z (List.mem_cons_of_mem _ hz))]

theorem Built.nodup {c ls} (hb : Built c ls) (hwf : WFs c.struct.entries c.struct.order) : (ls.map (·.1)).Nodup := by
  rw [hb.keys]; exact leafList_nodup hwf

theorem below_leaf {c : CS} {ls} (hb : Built c ls) (hwf : WFs c.struct.entries c.struct.order) {ci p}
    (h : IsLeaf c.struct.entries ci p) (k : ℕ) : below ci (layoutOf k ls) = [] := by
  rw [below, List.filterMap_eq_nil_iff]
  intro x hx
  rw [if_neg]
  intro ha
  have hx1 : x.1 ∈ ls.map (·.1) := by
    rw [← layoutOf_keys k]; exact List.mem_map.2 ⟨x, hx, rfl⟩
  obtain ⟨y, hy, e⟩ := List.mem_map.1 hx1
  obtain ⟨q, hq, _⟩ := hb.leaf y hy
  rw [e] at hq
  obtain ⟨es', o', d, hn, hl, e'⟩ := (mem_ancestors_tail hwf hq ci).1 ha
  exact hn.not_leaf hwf h

/-- The index matrix of an element: its pattern, and a block of positions at the total size of what is laid out before. -/
theorem Built.leaf_get {c : CS} {ls} (hb : Built c ls) (hwf : WFs c.struct.entries c.struct.order) {ci p}
    (h : IsLeaf c.struct.entries ci p) :
    ∃ pre post, ls = pre ++ (ci, p.sp) :: post ∧ dictGet c.map ci = some ⟨p.sp, block (sizeOf' pre) p.sp.nnz⟩ := by
  have hm : ci ∈ ls.map (·.1) := by rw [hb.keys]; exact (mem_leafList hwf).2 ⟨p, h⟩
  obtain ⟨y, hy, rfl⟩ := List.mem_map.1 hm
  obtain ⟨q, hq, e⟩ := hb.leaf y hy
  have : q = p := hq.unique hwf h
  subst this
  obtain ⟨pre, post, hs⟩ := List.append_of_mem hy
  have hy' : y = (y.1, q.sp) := Prod.ext rfl e
  refine ⟨pre, post, by rw [hs, ← hy'], ?_⟩
  rw [hb.get, if_pos (below_leaf hb hwf h 0)]
  apply dictGet_of_mem
  · rw [layoutOf_keys]; exact hb.nodup hwf
  · rw [hs, layoutOf_append, hy']
    simp [layoutOf]

theorem Built.node_split {c : CS} {ls} (hb : Built c ls) (hwf : WFs c.struct.entries c.struct.order) {a es' o'}
    (h : IsNode c.struct.entries a es' o') {ls' : List (CIdx × Sparsity)} (hk : ls'.map (·.1) = leafList es' o')
    (hl : ∀ x ∈ ls', ∃ p, IsLeaf es' x.1 p ∧ x.2 = p.sp) :
    ∃ pre post, ls = pre ++ (ls'.map fun x => (a ++ x.1, x.2)) ++ post := by
  obtain ⟨s, t, e⟩ := h.infix hwf
  rw [← hb.keys] at e
  have e1 : ls.map (·.1) = s ++ ((leafList es' o').map (fun c => a ++ c) ++ t) := by rw [← e, List.append_assoc]
  obtain ⟨pre, rest, rfl, hs, hr⟩ := List.map_eq_append_iff.1 e1
  obtain ⟨mid, post, rfl, hm, hp⟩ := List.map_eq_append_iff.1 hr
  refine ⟨pre, post, ?_⟩
  rw [← List.append_assoc]
  congr 2
  apply leaves_ext hwf
  · rw [hm, ← hk]
    simp
  · intro x hx
    exact hb.leaf x (by simp [hx])
  · intro x hx
    obtain ⟨y, hy, rfl⟩ := List.mem_map.1 hx
    obtain ⟨p, hp', e⟩ := hl y hy
    exact ⟨p, h.leaf hp', e⟩

theorem below_append (a : CIdx) (l1 l2 : List (CIdx × IMat)) : below a (l1 ++ l2) = below a l1 ++ below a l2 := by
  simp [below]

theorem below_node {c : CS} {ls} (hb : Built c ls) (hwf : WFs c.struct.entries c.struct.order) {a es' o'}
    (h : IsNode c.struct.entries a es' o') {ls' : List (CIdx × Sparsity)} (hk : ls'.map (·.1) = leafList es' o')
    (hl : ∀ x ∈ ls', ∃ p, IsLeaf es' x.1 p ∧ x.2 = p.sp) {pre post}
    (hs : ls = pre ++ (ls'.map fun x => (a ++ x.1, x.2)) ++ post) (k : ℕ) :
    below a (layoutOf k ls) = (layoutOf (k + sizeOf' pre) ls').map (·.2) := by
  have hnd := hb.nodup hwf
  have hmem : ∀ x ∈ ls, (a ∈ (canonicalIndexAncestors x.1).tail ↔ x.1 ∈ (ls'.map fun x => (a ++ x.1, x.2)).map (·.1)) := by
    intro x hx
    obtain ⟨p, hp, _⟩ := hb.leaf x hx
    rw [mem_ancestors_tail hwf hp a, List.map_map]
    constructor
    · rintro ⟨es2, o2, d, hn, hd, e⟩
      obtain ⟨rfl, rfl⟩ := h.unique hwf hn
      have : d ∈ ls'.map (·.1) := by rw [hk]; exact (mem_leafList (h.wf hwf)).2 ⟨p, hd⟩
      obtain ⟨y, hy, rfl⟩ := List.mem_map.1 this
      rw [e]
      exact List.mem_map.2 ⟨y, hy, rfl⟩
    · intro hm
      obtain ⟨y, hy, e⟩ := List.mem_map.1 hm
      obtain ⟨q, hq, _⟩ := hl y hy
      simp only [Function.comp] at e
      have := (h.leaf hq).unique hwf (e ▸ hp)
      subst this
      exact ⟨es', o', y.1, h, hq, e.symm⟩
  have hout : ∀ (l : List (CIdx × Sparsity)) (j : ℕ), (∀ x ∈ l, x ∈ ls) →
      (∀ x ∈ l, x.1 ∉ (ls'.map fun x => (a ++ x.1, x.2)).map (·.1)) → below a (layoutOf j l) = [] := by
    intro l j h1 h2
    rw [below, List.filterMap_eq_nil_iff]
    intro x hx
    have hx1 : x.1 ∈ l.map (·.1) := by
      rw [← layoutOf_keys j]; exact List.mem_map.2 ⟨x, hx, rfl⟩
    obtain ⟨y, hy, e⟩ := List.mem_map.1 hx1
    rw [if_neg]
    rw [← e, hmem y (h1 y hy)]
    exact h2 y hy
  rw [hs, List.map_append, List.map_append] at hnd
  have hd1 := List.nodup_append.1 hnd
  have hd2 := List.nodup_append.1 hd1.1
  rw [hs, layoutOf_append, layoutOf_append, below_append, below_append]
  rw [hout pre k (fun x hx => by rw [hs]; simp [hx]) ?_, hout post _ (fun x hx => by rw [hs]; simp [hx]) ?_]
  · rw [List.nil_append, List.append_nil, layoutOf_prefix, below]
    rw [List.filterMap_map]
    rw [← List.filterMap_eq_map]
    apply List.filterMap_congr
    intro x hx
    simp only [Function.comp]
    have hx1 : x.1 ∈ ls'.map (·.1) := by
      rw [← layoutOf_keys]; exact List.mem_map.2 ⟨x, hx, rfl⟩
    obtain ⟨y, hy, e⟩ := List.mem_map.1 hx1
    rw [if_pos]
    have hy2 : (a ++ y.1, y.2) ∈ ls := by
      rw [hs]
      simp only [List.mem_append, List.mem_map]
      exact .inl (.inr ⟨y, hy, rfl⟩)
    rw [← e]
    exact (hmem _ hy2).2 (by
      rw [List.map_map]
      exact List.mem_map.2 ⟨y, hy, rfl⟩)
  · intro x hx hm
    exact hd1.2.2 _ (List.mem_append_right _ hm) _ (List.mem_map.2 ⟨x, hx, rfl⟩) rfl
  · intro x hx hm
    exact hd2.2.2 _ (List.mem_map.2 ⟨x, hx, rfl⟩) _ hm rfl

/-- The index matrix of a nested struct: a column with a block of positions; no entry if it has no elements. -/
theorem Built.node_get {c : CS} {ls} (hb : Built c ls) (hwf : WFs c.struct.entries c.struct.order) {a es' o'}
    (h : IsNode c.struct.entries a es' o') {ls' : List (CIdx × Sparsity)} (hk : ls'.map (·.1) = leafList es' o')
    (hl : ∀ x ∈ ls', ∃ p, IsLeaf es' x.1 p ∧ x.2 = p.sp) {pre post}
    (hs : ls = pre ++ (ls'.map fun x => (a ++ x.1, x.2)) ++ post) :
    dictGet c.map a = if ls' = [] then none else some (.col (block (sizeOf' pre) (sizeOf' ls'))) := by
  rw [hb.get, below_node hb hwf h hk hl hs]
  by_cases he : ls' = []
  · subst he
    rw [if_pos (by rfl), if_pos rfl, dictGet_eq_none, layoutOf_keys, hb.keys, mem_leafList hwf]
    rintro ⟨p, hp⟩
    exact h.not_leaf hwf hp
  · rw [if_neg, if_neg he, nzCat_col, layoutOf_map_snd_data, Nat.zero_add]
    cases ls' with
    | nil => exact absurd rfl he
    | cons x ls' => simp [layoutOf]

end CE.St
