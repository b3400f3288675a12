import Verif.Struct.LemDict

/-! # Canonical indices of a struct -/

namespace CE.St

/-- Induction over entries. -/
theorem Entry.induct {P : Entry → Prop} (prim : ∀ n d p, P (.prim n d p))
    (nested : ∀ n d es o, (∀ e ∈ es, P e) → P (.nested n d es o)) (e : Entry) : P e :=
  Entry.rec (motive_1 := P) (motive_2 := fun es => ∀ e ∈ es, P e) prim (fun n d es o h => nested n d es o h)
    (fun _ h => absurd h List.not_mem_nil)
    (fun _ _ h1 h2 e he => (List.mem_cons.1 he).elim (fun h => h ▸ h1) (h2 e)) e

theorem WFs.nodup {es o} (h : WFs es o) : (es.map Entry.name).Nodup := by cases h; assumption
theorem WFs.perm {es o} (h : WFs es o) : (o.flatMap OrderItem.names).Perm (es.map Entry.name) := by cases h; assumption
theorem WFs.canon {es o} (h : WFs es o) : ∀ n d p, Entry.prim n d p ∈ es → p.sp.Canon := by cases h; assumption
theorem WFs.sub {es o} (h : WFs es o) : ∀ n d es' o', Entry.nested n d es' o' ∈ es → WFs es' o' := by cases h; assumption

theorem IsLeaf.head {es c p} (h : IsLeaf es c p) : ∃ n c', c = .str n :: c' := by
  cases h
  · exact ⟨_, _, rfl⟩
  · exact ⟨_, _, rfl⟩

theorem IsLeaf.ne_nil {es c p} (h : IsLeaf es c p) : c ≠ [] := by
  obtain ⟨n, c', rfl⟩ := h.head
  simp

theorem IsNode.head {es c es' o} (h : IsNode es c es' o) : ∃ n c', c = .str n :: c' := by
  cases h
  · exact ⟨_, _, rfl⟩
  · exact ⟨_, _, rfl⟩

/-! ## Lookup of entries -/

theorem eq_of_name {es : List Entry} (h : (es.map Entry.name).Nodup) {e e' : Entry} (he : e ∈ es) (he' : e' ∈ es)
    (hn : e.name = e'.name) : e = e' :=
  List.inj_on_of_nodup_map h he he' hn

theorem find?_reverse_of_nodup {β : Type} {l : List β} {f : β → String} (h : (l.map f).Nodup) {e : β} (he : e ∈ l) :
    l.reverse.find? (fun x => decide (f x = f e)) = some e := by
  have hs : (l.reverse.find? (fun x => decide (f x = f e))).isSome := by
    rw [List.find?_isSome]
    exact ⟨e, List.mem_reverse.2 he, by simp⟩
  obtain ⟨x, hx⟩ := Option.isSome_iff_exists.1 hs
  rw [hx]
  have h1 := List.find?_some hx
  have h2 := List.mem_reverse.1 (List.mem_of_find?_eq_some hx)
  rw [List.inj_on_of_nodup_map h h2 he (by simpa using h1)]

theorem dictEntry_of_mem {es : List Entry} (h : (es.map Entry.name).Nodup) {e : Entry} (he : e ∈ es) :
    dictEntry es e.name = some e := find?_reverse_of_nodup h he

theorem dictEntry_some {es : List Entry} {n : String} {e : Entry} (h : dictEntry es n = some e) : e ∈ es ∧ e.name = n :=
  ⟨List.mem_reverse.1 (List.mem_of_find?_eq_some h), by simpa using List.find?_some h⟩

/-! ## Canonical indices -/

mutual
/-- `children` without a depth limit. -/
def Entry.kids : Entry → List CIdx
  | .prim .. => [[]]
  | .nested _ _ es order => structCan order (kidTable es)
/-- Name, dims and `kids`. -/
def kidTable : List Entry → List (String × List ℕ × List CIdx)
  | [] => []
  | e :: es => (e.name, e.dims, e.kids) :: kidTable es
end

theorem kidTable_eq (es : List Entry) : kidTable es = es.map fun e => (e.name, e.dims, e.kids) := by
  induction es with
  | nil => rfl
  | cons e es ih => rw [kidTable, ih, List.map_cons]

theorem childTable_eq (l : ℤ) (es : List Entry) : childTable l es = es.map fun e => (e.name, e.dims, e.children l) := by
  induction es with
  | nil => rfl
  | cons e es ih => rw [childTable, ih, List.map_cons]

theorem children_odd (e : Entry) : ∀ l : ℤ, l % 2 = 1 → e.children l = e.kids := by
  induction e using Entry.induct with
  | prim n d p => intro l _; rfl
  | nested n d es o ih =>
    intro l hl
    rw [Entry.children, if_neg (by omega), Entry.kids, childTable_eq, kidTable_eq]
    congr 1
    apply List.map_congr_left
    intro e he
    rw [ih e he _ (by omega)]

/-- The canonical indices of all primitive elements of a struct, in order of layout. -/
def leafList (es : List Entry) (order : List OrderItem) : List CIdx := structCan order (kidTable es)

theorem traverseCanonicalIndex_eq (s : Struct) : s.traverseCanonicalIndex = leafList s.entries s.order := by
  rw [Struct.traverseCanonicalIndex, leafList, childTable_eq, kidTable_eq]
  congr 1
  apply List.map_congr_left
  intro e _
  rw [children_odd e _ (by decide)]

/-- The canonical indices of an entry. -/
def Entry.can (e : Entry) : List CIdx := entryCan e.name e.dims e.kids

/-- The canonical indices of an entry, grouped by the first repeat index. -/
def Entry.canNest (e : Entry) : List (List CIdx) := entryCanNest e.name e.dims e.kids

theorem canNest_flatten (e : Entry) : e.canNest.flatten = e.can := entryCanNest_flatten _ _ _

theorem find?_kidTable (es : List Entry) (n : String) :
    (kidTable es).reverse.find? (fun t => decide (t.1 = n)) = (dictEntry es n).map fun e => (e.name, e.dims, e.kids) := by
  rw [kidTable_eq, ← List.map_reverse, List.find?_map, dictEntry]
  rfl

/-- The canonical indices of one element of `order`. -/
def itemCan (es : List Entry) : OrderItem → List CIdx
  | .one n => ((dictEntry es n).map Entry.can).getD []
  | .tup ns => (intersperse (ns.map fun n => ((dictEntry es n).map Entry.canNest).getD [])).flatten

theorem leafList_eq (es : List Entry) (order : List OrderItem) : leafList es order = order.flatMap (itemCan es) := by
  unfold leafList structCan
  congr 1
  funext o
  cases o with
  | one n =>
    simp only [find?_kidTable, itemCan]
    cases dictEntry es n <;> rfl
  | tup ns =>
    simp only [find?_kidTable, itemCan]
    congr 3
    funext n
    cases dictEntry es n <;> rfl

theorem itemCan_perm (es : List Entry) (o : OrderItem) :
    (itemCan es o).Perm (o.names.flatMap fun n => ((dictEntry es n).map Entry.can).getD []) := by
  cases o with
  | one n => simp [itemCan, OrderItem.names]
  | tup ns =>
    simp only [itemCan, OrderItem.names]
    refine (intersperse_perm _).flatten.trans ?_
    rw [← List.flatMap_def]
    induction ns with
    | nil => simp
    | cons n ns ih =>
      rw [List.flatMap_cons, List.flatMap_cons, List.flatten_append]
      refine List.Perm.append ?_ ih
      cases dictEntry es n with
      | none => simp
      | some e => simp [canNest_flatten]

theorem flatMap_perm_fun {α β : Type} (l : List α) (f g : α → List β) (h : ∀ a ∈ l, (f a).Perm (g a)) :
    (l.flatMap f).Perm (l.flatMap g) := by
  induction l with
  | nil => simp
  | cons a l ih =>
    rw [List.flatMap_cons, List.flatMap_cons]
    exact (h a List.mem_cons_self).append (ih fun b hb => h b (List.mem_cons_of_mem _ hb))

theorem leafList_perm {es : List Entry} {order : List OrderItem} (h : WFs es order) :
    (leafList es order).Perm (es.flatMap Entry.can) := by
  rw [leafList_eq]
  refine (flatMap_perm_fun _ _ _ fun o _ => itemCan_perm es o).trans ?_
  have e1 : (order.flatMap fun o => o.names.flatMap fun n => ((dictEntry es n).map Entry.can).getD []) =
      (order.flatMap OrderItem.names).flatMap fun n => ((dictEntry es n).map Entry.can).getD [] := by
    rw [List.flatMap_assoc]
  rw [e1]
  refine (List.Perm.flatMap_right _ h.perm).trans ?_
  rw [List.flatMap_map]
  apply flatMap_perm_fun
  intro e he
  rw [dictEntry_of_mem h.nodup he]
  exact List.Perm.refl _

theorem mem_can {e : Entry} {c : CIdx} :
    c ∈ e.can ↔ ∃ ks c', InDims ks e.dims ∧ c' ∈ e.kids ∧ c = .str e.name :: (ks ++ c') := by
  rw [Entry.can, entryCan_eq, List.mem_flatMap]
  constructor
  · rintro ⟨ks, hks, h⟩
    obtain ⟨c', hc', rfl⟩ := List.mem_map.1 h
    exact ⟨ks, c', mem_listindices.1 hks, hc', rfl⟩
  · rintro ⟨ks, c', hks, hc', rfl⟩
    exact ⟨ks, mem_listindices.2 hks, List.mem_map.2 ⟨c', hc', rfl⟩⟩

theorem mem_leafList_aux (e : Entry) : ∀ (n : String) (d : List ℕ) (es : List Entry) (o : List OrderItem),
    e = .nested n d es o → WFs es o → ∀ c, c ∈ leafList es o ↔ ∃ p, IsLeaf es c p := by
  induction e using Entry.induct with
  | prim n d p => intro _ _ _ _ h; cases h
  | nested n d es o ih =>
    rintro _ _ _ _ ⟨⟩ hwf c
    rw [(leafList_perm hwf).mem_iff, List.mem_flatMap]
    constructor
    · rintro ⟨e, he, hc⟩
      obtain ⟨ks, c', hks, hc', rfl⟩ := mem_can.1 hc
      cases e with
      | prim n d p =>
        have : c' = [] := by simpa [Entry.kids] using hc'
        subst this
        rw [List.append_nil]
        exact ⟨p, .prim he hks⟩
      | nested n d es' o' =>
        obtain ⟨p, hp⟩ := (ih _ he n d es' o' rfl (hwf.sub _ _ _ _ he) c').1 hc'
        exact ⟨p, .nested he hks hp⟩
    · rintro ⟨p, hp⟩
      cases hp with
      | prim he hks => exact ⟨_, he, mem_can.2 ⟨_, [], hks, by simp [Entry.kids], by simp [Entry.name]⟩⟩
      | nested he hks hc =>
        exact ⟨_, he, mem_can.2 ⟨_, _, hks, (ih _ he _ _ _ _ rfl (hwf.sub _ _ _ _ he) _).2 ⟨_, hc⟩, rfl⟩⟩

theorem mem_leafList {es : List Entry} {o : List OrderItem} (h : WFs es o) {c : CIdx} :
    c ∈ leafList es o ↔ ∃ p, IsLeaf es c p := mem_leafList_aux (.nested "" [] es o) _ _ _ _ rfl h c

theorem str_append_inj {n n' : String} {ks ks' c c' : CIdx} {dims dims' : List ℕ} (h : InDims ks dims)
    (h' : InDims ks' dims') (hd : dims = dims') (e : Key.str n :: (ks ++ c) = Key.str n' :: (ks' ++ c')) :
    n = n' ∧ ks = ks' ∧ c = c' := by
  obtain ⟨h1, h2⟩ := List.cons.inj e
  obtain ⟨h3, h4⟩ := List.append_inj h2 (by rw [h.length, h'.length, hd])
  exact ⟨Key.str.inj h1, h3, h4⟩

theorem can_nodup {e : Entry} (h : e.kids.Nodup) : e.can.Nodup := by
  rw [Entry.can, entryCan_eq, List.nodup_flatMap]
  refine ⟨fun ks _ => ?_, ?_⟩
  · apply (List.nodup_map_iff ?_).2 h
    intro a b hab
    simpa using hab
  · apply List.Pairwise.imp_of_mem (R := fun a b => a ≠ b) ?_ (listindices_nodup e.dims)
    intro a b ha hb hab
    rw [Function.onFun, List.disjoint_left]
    intro x hx hy
    obtain ⟨u, _, rfl⟩ := List.mem_map.1 hx
    obtain ⟨v, _, e⟩ := List.mem_map.1 hy
    exact hab (str_append_inj (mem_listindices.1 hb) (mem_listindices.1 ha) rfl e).2.1.symm

theorem leafList_nodup_aux (e : Entry) : ∀ (n : String) (d : List ℕ) (es : List Entry) (o : List OrderItem),
    e = .nested n d es o → WFs es o → (leafList es o).Nodup := by
  induction e using Entry.induct with
  | prim n d p => intro _ _ _ _ h; cases h
  | nested n d es o ih =>
    rintro _ _ _ _ ⟨⟩ hwf
    rw [(leafList_perm hwf).nodup_iff, List.nodup_flatMap]
    refine ⟨fun e he => can_nodup ?_, ?_⟩
    · cases e with
      | prim => simp [Entry.kids]
      | nested n d es' o' => exact ih _ he n d es' o' rfl (hwf.sub _ _ _ _ he)
    · have := hwf.nodup
      rw [List.Nodup, List.pairwise_map] at this
      apply this.imp
      intro a b hab
      rw [Function.onFun, List.disjoint_left]
      intro x hx hy
      obtain ⟨_, _, _, _, rfl⟩ := mem_can.1 hx
      obtain ⟨_, _, _, _, e⟩ := mem_can.1 hy
      exact hab (Key.str.inj (List.cons.inj e).1)

theorem leafList_nodup {es : List Entry} {o : List OrderItem} (h : WFs es o) : (leafList es o).Nodup :=
  leafList_nodup_aux (.nested "" [] es o) _ _ _ _ rfl h

/-! ## Uniqueness of decoding -/

theorem IsLeaf.decode {es o c p} (hwf : WFs es o) (h : IsLeaf es c p) :
    ∃ e ks c', e ∈ es ∧ InDims ks e.dims ∧ c = .str e.name :: (ks ++ c') ∧
      ((∃ n d, e = .prim n d p ∧ c' = []) ∨ ∃ n d es' o', e = .nested n d es' o' ∧ WFs es' o' ∧ IsLeaf es' c' p) := by
  cases h with
  | prim he hks => exact ⟨_, _, [], he, hks, by simp [Entry.name], .inl ⟨_, _, rfl, rfl⟩⟩
  | nested he hks hc => exact ⟨_, _, _, he, hks, rfl, .inr ⟨_, _, _, _, rfl, hwf.sub _ _ _ _ he, hc⟩⟩

/-- No canonical index of a primitive element is a proper prefix of another one, and the element is determined. -/
theorem IsLeaf.prefix_free {es o c p} (hwf : WFs es o) (h : IsLeaf es c p) :
    ∀ {d q}, IsLeaf es (c ++ d) q → d = [] ∧ p = q := by
  induction h generalizing o with
  | @prim es n dims p ks he hks =>
    intro d q hq
    obtain ⟨e, ks', c', he', hks', e1, hh⟩ := hq.decode hwf
    have hn : n = e.name := Key.str.inj (List.cons.inj e1).1
    have hee := eq_of_name hwf.nodup he he' hn
    subst hee
    rw [List.cons_append] at e1
    obtain ⟨_, _, h3⟩ := str_append_inj hks hks' rfl e1
    rcases hh with ⟨_, _, h, h'⟩ | ⟨_, _, _, _, h, _⟩
    · cases h
      exact ⟨h3.trans h', rfl⟩
    · cases h
  | @nested es n dims es' o' ks c p he hks hc ih =>
    intro d q hq
    obtain ⟨e, ks', c', he', hks', e1, hh⟩ := hq.decode hwf
    have hn : n = e.name := Key.str.inj (List.cons.inj e1).1
    have hee := eq_of_name hwf.nodup he he' hn
    subst hee
    rw [List.cons_append, List.append_assoc] at e1
    obtain ⟨_, _, h3⟩ := str_append_inj hks hks' rfl e1
    rcases hh with ⟨_, _, h, _⟩ | ⟨_, _, _, _, h, hwf', hl⟩
    · cases h
    · cases h
      rw [← h3] at hl
      exact ih hwf' hl

theorem IsLeaf.unique {es o c p q} (hwf : WFs es o) (h : IsLeaf es c p) (h' : IsLeaf es c q) : p = q :=
  (h.prefix_free hwf (d := []) (by rwa [List.append_nil])).2

theorem IsLeaf.canon {es o c p} (hwf : WFs es o) (h : IsLeaf es c p) : p.sp.Canon := by
  induction h generalizing o with
  | prim he _ => exact hwf.canon _ _ _ he
  | nested he _ _ ih => exact ih (hwf.sub _ _ _ _ he)

theorem strings_ints {ks : CIdx} (h : ∀ k ∈ ks, k.isStr = false) : strings ks = [] := by
  rw [strings, List.filterMap_eq_nil_iff]
  intro k hk
  have := h k hk
  cases k with
  | str s => simp [Key.isStr] at this
  | int i => rfl

theorem strings_append (a b : CIdx) : strings (a ++ b) = strings a ++ strings b := by
  simp [strings, List.filterMap_append]

theorem strings_str (n : String) (c : CIdx) : strings (.str n :: c) = n :: strings c := rfl

theorem IsLeaf.entryByPath {es o c p} (hwf : WFs es o) (h : IsLeaf es c p) :
    ∃ n d, entryByPath es (strings c) = .ok (.prim n d p) := by
  induction h generalizing o with
  | @prim es n dims p ks he hks =>
    rw [strings_str, strings_ints hks.ints, St.entryByPath]
    have := dictEntry_of_mem hwf.nodup he
    rw [Entry.name] at this
    rw [this]
    exact ⟨n, dims, rfl⟩
  | @nested es n dims es' o' ks c p he hks hc ih =>
    rw [strings_str, strings_append, strings_ints hks.ints, List.nil_append, St.entryByPath]
    have := dictEntry_of_mem hwf.nodup he
    rw [Entry.name] at this
    rw [this]
    obtain ⟨n', c', rfl⟩ := hc.head
    simp only
    rw [if_neg (by rw [strings_str]; simp)]
    exact ih (hwf.sub _ _ _ _ he)

/-! ## Ancestors -/

theorem ancestors_cons {ind : CIdx} (h : ind ≠ []) : canonicalIndexAncestors ind =
    ind :: canonicalIndexAncestors (ind.take (ind.length - ((ind.reverse.findIdx Key.isStr) + 1))) := by
  rw [canonicalIndexAncestors, dif_neg h]

theorem ancestors_nil : canonicalIndexAncestors [] = [] := by
  rw [canonicalIndexAncestors, dif_pos rfl]

/-- Stripping the last name and what follows it. -/
theorem ancestors_strip (c : CIdx) (n : String) {ks : CIdx} (h : ∀ k ∈ ks, k.isStr = false) :
    canonicalIndexAncestors (c ++ .str n :: ks) = (c ++ .str n :: ks) :: canonicalIndexAncestors c := by
  rw [ancestors_cons (by simp)]
  congr 2
  have : (c ++ Key.str n :: ks).reverse.findIdx Key.isStr = ks.length := by
    rw [List.reverse_append, List.reverse_cons, List.append_assoc, List.findIdx_append]
    rw [if_neg]
    · rw [List.length_reverse, List.singleton_append, List.findIdx_cons]
      simp [Key.isStr]
    · rw [List.findIdx_eq_length_of_false]
      · simp
      · intro k hk
        simpa using h k (List.mem_reverse.1 hk)
  rw [this]
  have e : (c ++ Key.str n :: ks).length - (ks.length + 1) = c.length := by
    simp
  rw [e, List.take_left']
  rfl

/-- The ancestors of an index inside a nested struct: those within it, then the nested struct itself and its ancestors. -/
theorem ancestors_append {es c p} (h : IsLeaf es c p) (b : CIdx) :
    canonicalIndexAncestors (b ++ c) = (canonicalIndexAncestors c).map (b ++ ·) ++ canonicalIndexAncestors b := by
  induction h generalizing b with
  | @prim es n dims p ks he hks =>
    rw [ancestors_strip b n hks.ints]
    have := ancestors_strip [] n hks.ints
    rw [List.nil_append] at this
    rw [this, ancestors_nil]
    simp
  | @nested es n dims es' o' ks c p he hks hc ih =>
    have e1 : b ++ Key.str n :: (ks ++ c) = (b ++ Key.str n :: ks) ++ c := by simp
    have e2 : Key.str n :: (ks ++ c) = (Key.str n :: ks) ++ c := by simp
    rw [e1, ih, e2, ih, ancestors_strip b n hks.ints]
    have := ancestors_strip [] n hks.ints
    rw [List.nil_append] at this
    rw [this, ancestors_nil]
    simp

/-- The proper ancestors of an element are the nested structs that contain it. -/
theorem mem_ancestors_tail {es o c p} (hwf : WFs es o) (h : IsLeaf es c p) (a : CIdx) :
    a ∈ (canonicalIndexAncestors c).tail ↔ ∃ es' o' d, IsNode es a es' o' ∧ IsLeaf es' d p ∧ c = a ++ d := by
  induction h generalizing o a with
  | @prim es n dims p ks he hks =>
    have := ancestors_strip [] n hks.ints
    rw [List.nil_append] at this
    rw [this, ancestors_nil]
    constructor
    · intro h; simp at h
    · rintro ⟨es', o', d, hn, hl, e⟩
      exfalso
      cases hn with
      | @top _ n' dims' _ _ ks' he' hks' =>
        have hn : n = n' := Key.str.inj (List.cons.inj e).1
        have := eq_of_name hwf.nodup he he' hn
        cases this
      | @nested _ n' dims' _ _ ks' c' _ _ he' hks' hc' =>
        have hn : n = n' := Key.str.inj (List.cons.inj e).1
        have := eq_of_name hwf.nodup he he' hn
        cases this
  | @nested es n dims es' o' ks c p he hks hc ih =>
    have e2 : Key.str n :: (ks ++ c) = (Key.str n :: ks) ++ c := by simp
    have hA : canonicalIndexAncestors (Key.str n :: ks) = [Key.str n :: ks] := by
      have := ancestors_strip [] n hks.ints
      rw [List.nil_append] at this
      rw [this, ancestors_nil]
    rw [e2, ancestors_append hc, hA]
    have hcne : canonicalIndexAncestors c ≠ [] := by
      rw [ancestors_cons hc.ne_nil]; simp
    rw [List.tail_append_of_ne_nil (by simpa using hcne), List.mem_append, ← List.map_tail, List.mem_map]
    constructor
    · rintro (⟨a', ha', rfl⟩ | ha)
      · obtain ⟨es'', o'', d, hn, hl, rfl⟩ := (ih (hwf.sub _ _ _ _ he) a').1 ha'
        refine ⟨es'', o'', d, ?_, hl, by simp⟩
        have := IsNode.nested he hks hn
        simpa using this
      · have : a = Key.str n :: ks := by simpa using ha
        subst this
        exact ⟨es', o', c, .top he hks, hc, rfl⟩
    · rintro ⟨es'', o'', d, hn, hl, e⟩
      cases hn with
      | @top _ n' dims' _ _ ks' he' hks' =>
        have hn : n = n' := Key.str.inj (List.cons.inj e).1
        have := eq_of_name hwf.nodup he he' hn
        cases this
        have e' : Key.str n :: (ks ++ c) = Key.str n :: (ks' ++ d) := by simpa using e
        obtain ⟨_, rfl, rfl⟩ := str_append_inj hks hks' rfl e'
        right; simp
      | @nested _ n' dims' es3 o3 ks' c' _ _ he' hks' hc' =>
        have hn : n = n' := Key.str.inj (List.cons.inj e).1
        have := eq_of_name hwf.nodup he he' hn
        cases this
        have e' : Key.str n :: (ks ++ c) = Key.str n :: (ks' ++ (c' ++ d)) := by simpa using e
        obtain ⟨_, rfl, rfl⟩ := str_append_inj hks hks' rfl e'
        left
        exact ⟨c', (ih (hwf.sub _ _ _ _ he) c').2 ⟨_, _, d, hc', hl, rfl⟩, by simp⟩

theorem ancestors_nodup (c : CIdx) : (canonicalIndexAncestors c).Nodup := by
  have key : ∀ m (c : CIdx), c.length = m → (canonicalIndexAncestors c).Nodup ∧
      ∀ a ∈ canonicalIndexAncestors c, a.length ≤ c.length := by
    intro m
    induction m using Nat.strong_induction_on with
    | _ m ih =>
      intro c hc
      by_cases h : c = []
      · subst h; rw [ancestors_nil]; simp
      · have hpos : 0 < c.length := List.length_pos_iff.2 h
        rw [ancestors_cons h]
        set t := c.take (c.length - ((c.reverse.findIdx Key.isStr) + 1)) with ht
        have hl : t.length < c.length := by rw [ht, List.length_take]; omega
        obtain ⟨h1, h2⟩ := ih t.length (by omega) t rfl
        refine ⟨List.nodup_cons.2 ⟨?_, h1⟩, ?_⟩
        · intro hm
          have := h2 c hm
          omega
        · intro a ha
          rcases List.mem_cons.1 ha with rfl | ha
          · exact le_refl _
          · exact (h2 a ha).trans hl.le
  exact (key _ c rfl).1

end CE.St
