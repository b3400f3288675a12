import Verif.Struct.PropsSymm

/-! # The elements of the entries of a struct, in the order of the layout -/

namespace CE.St

theorem intersperseGo_map {α β : Type} (f : α → β) (fuel : ℕ) : ∀ (its : List (List α)) (active : List Bool) (i : ℕ),
    intersperseGo fuel (its.map (List.map f)) active i = (intersperseGo fuel its active i).map f := by
  induction fuel with
  | zero => intro _ _ _; rfl
  | succ fuel ih =>
    intro its active i
    rw [intersperseGo, intersperseGo]
    split
    · rw [List.getElem?_map, List.length_map]
      cases h : its[i]? with
      | none => simp only [Option.map_none]; exact ih _ _ _
      | some l =>
        cases l with
        | nil => simp only [Option.map_some, List.map_nil]; exact ih _ _ _
        | cons a l =>
          simp only [Option.map_some, List.map_cons]
          rw [← ih, List.map_set]
    · rfl

theorem intersperse_map {α β : Type} (f : α → β) (its : List (List α)) :
    intersperse (its.map (List.map f)) = (intersperse its).map f := by
  unfold intersperse
  rw [← intersperseGo_map, List.length_map, List.map_map]
  congr 2
  rw [← List.map_flatten, List.length_map]

/-- `traverseCanonicalIndex(limit=1)`: the repetitions of the entries. -/
def tops (es : List Entry) (o : List OrderItem) : List CIdx := structCan o (es.map fun e => (e.name, e.dims, [[]]))

theorem traverseCanonicalIndex_one (s : Struct) : s.traverseCanonicalIndex 1 = tops s.entries s.order := by
  rw [Struct.traverseCanonicalIndex, tops, childTable_eq]
  congr 1
  apply List.map_congr_left
  intro e _
  cases e <;> simp [Entry.children]

/-- The elements below a repetition of an entry. -/
def expand (es : List Entry) (t : CIdx) : List CIdx :=
  match t with
  | .str n :: _ => ((dictEntry es n).map fun e => e.kids.map (t ++ ·)).getD []
  | _ => []

theorem dictEntry_name {es : List Entry} {n : String} {e : Entry} (h : dictEntry es n = some e) : dictEntry es e.name = some e := by
  rw [(dictEntry_some h).2, h]

theorem expand_eq {es : List Entry} {e : Entry} (h : dictEntry es e.name = some e) (ks : CIdx) :
    expand es (.str e.name :: ks) = e.kids.map fun c => .str e.name :: (ks ++ c) := by
  rw [expand, h]
  rfl

theorem find?_topTable (es : List Entry) (n : String) :
    (es.map fun e => (e.name, e.dims, ([[]] : List CIdx))).reverse.find? (fun t => decide (t.1 = n)) =
      (dictEntry es n).map fun e => (e.name, e.dims, [[]]) := by
  rw [← List.map_reverse, List.find?_map, dictEntry]
  rfl

/-- The repetitions of the entries in one element of `order`. -/
def itemTop (es : List Entry) : OrderItem → List CIdx
  | .one n => ((dictEntry es n).map fun e => (listindices e.dims).map fun ks => .str e.name :: ks).getD []
  | .tup ns => (intersperse (ns.map fun n => ((dictEntry es n).map fun e =>
      (listindicesNest e.dims).map fun l => l.map fun ks => Key.str e.name :: ks).getD [])).flatten

theorem flatMap_single {α β : Type} (l : List α) (f : α → β) : l.flatMap (fun a => [f a]) = l.map f := by
  induction l with
  | nil => rfl
  | cons a l ih => rw [List.flatMap_cons, ih]; rfl

theorem tops_eq (es : List Entry) (order : List OrderItem) : tops es order = order.flatMap (itemTop es) := by
  unfold tops structCan
  congr 1
  funext o
  cases o with
  | one n =>
    simp only [find?_topTable, itemTop]
    cases dictEntry es n with
    | none => rfl
    | some e =>
      simp only [Option.map_some, Option.getD_some, entryCan_eq, List.map_cons, List.map_nil, List.append_nil]
      exact flatMap_single _ _
  | tup ns =>
    simp only [find?_topTable, itemTop]
    congr 3
    funext n
    cases dictEntry es n with
    | none => rfl
    | some e =>
      simp only [Option.map_some, Option.getD_some, entryCanNest_eq, List.map_cons, List.map_nil, List.append_nil]
      apply List.map_congr_left
      intro l _
      exact flatMap_single _ _

theorem flatMap_map' {α β γ : Type} (l : List α) (f : α → β) (g : β → List γ) : (l.map f).flatMap g = l.flatMap fun a => g (f a) := by
  induction l with
  | nil => rfl
  | cons a l ih => rw [List.map_cons, List.flatMap_cons, List.flatMap_cons, ih]

theorem flatten_map_flatMap {α β : Type} (l : List (List α)) (g : α → List β) :
    (l.map fun r => r.flatMap g).flatten = l.flatten.flatMap g := by
  induction l with
  | nil => rfl
  | cons a l ih => rw [List.map_cons, List.flatten_cons, List.flatten_cons, ih, List.flatMap_append]

/-- The layout is the concatenation of what is below the repetitions of the entries. -/
theorem leafList_tops (es : List Entry) (o : List OrderItem) : leafList es o = (tops es o).flatMap (expand es) := by
  rw [leafList_eq, tops_eq, List.flatMap_assoc]
  congr 1
  funext oi
  cases oi with
  | one n =>
    simp only [itemCan, itemTop]
    cases h : dictEntry es n with
    | none => rfl
    | some e =>
      simp only [Option.map_some, Option.getD_some, Entry.can, entryCan_eq, flatMap_map', expand_eq (dictEntry_name h)]
  | tup ns =>
    simp only [itemCan, itemTop]
    rw [← flatten_map_flatMap, ← intersperse_map, List.map_map]
    congr 3
    funext n
    simp only [Function.comp]
    cases h : dictEntry es n with
    | none => rfl
    | some e =>
      simp only [Option.map_some, Option.getD_some, Entry.canNest, entryCanNest_eq, List.map_map]
      apply List.map_congr_left
      intro l _
      simp only [Function.comp, flatMap_map', expand_eq (dictEntry_name h)]

theorem mem_itemTop {es : List Entry} {oi : OrderItem} {t : CIdx} :
    t ∈ itemTop es oi ↔ ∃ n ∈ oi.names, ∃ e, dictEntry es n = some e ∧ ∃ ks, InDims ks e.dims ∧ t = .str e.name :: ks := by
  have key : ∀ n, t ∈ ((dictEntry es n).map fun e => (listindices e.dims).map fun ks => Key.str e.name :: ks).getD [] ↔
      ∃ e, dictEntry es n = some e ∧ ∃ ks, InDims ks e.dims ∧ t = .str e.name :: ks := by
    intro n
    cases dictEntry es n with
    | none => simp
    | some e =>
      simp only [Option.map_some, Option.getD_some, List.mem_map, mem_listindices, Option.some.injEq, exists_eq_left']
      constructor <;> rintro ⟨ks, h1, h2⟩ <;> exact ⟨ks, h1, h2.symm⟩
  cases oi with
  | one n =>
    rw [itemTop, key]
    simp [OrderItem.names]
  | tup ns =>
    rw [itemTop]
    have hp := (intersperse_perm (ns.map fun n => ((dictEntry es n).map fun e =>
      (listindicesNest e.dims).map fun l => l.map fun ks => Key.str e.name :: ks).getD [])).flatten.mem_iff (a := t)
    rw [hp]
    simp only [List.mem_flatten, List.mem_map, OrderItem.names]
    constructor
    · rintro ⟨l, ⟨L, ⟨n, hn, rfl⟩, hl⟩, ht⟩
      refine ⟨n, hn, ?_⟩
      cases h : dictEntry es n with
      | none => rw [h] at hl; simp at hl
      | some e =>
        rw [h] at hl
        simp only [Option.map_some, Option.getD_some, List.mem_map] at hl
        obtain ⟨l', hl', rfl⟩ := hl
        obtain ⟨ks, hks, rfl⟩ := List.mem_map.1 ht
        exact ⟨e, rfl, ks, mem_listindices.1 (by rw [← listindicesNest_flatten]; exact List.mem_flatten.2 ⟨l', hl', hks⟩), rfl⟩
    · rintro ⟨n, hn, e, he, ks, hks, rfl⟩
      have := mem_listindices.2 hks
      rw [← listindicesNest_flatten] at this
      obtain ⟨l', hl', hk⟩ := List.mem_flatten.1 this
      refine ⟨l'.map fun ks => .str e.name :: ks, ⟨_, ⟨n, hn, rfl⟩, ?_⟩, List.mem_map.2 ⟨ks, hk, rfl⟩⟩
      rw [he]
      exact List.mem_map.2 ⟨l', hl', rfl⟩

theorem mem_tops {es : List Entry} {o : List OrderItem} (hwf : WFs es o) {t : CIdx} :
    t ∈ tops es o ↔ ∃ e ∈ es, ∃ ks, InDims ks e.dims ∧ t = .str e.name :: ks := by
  rw [tops_eq, List.mem_flatMap]
  constructor
  · rintro ⟨oi, _, h⟩
    obtain ⟨n, _, e, he, ks, hks, rfl⟩ := mem_itemTop.1 h
    exact ⟨e, (dictEntry_some he).1, ks, hks, rfl⟩
  · rintro ⟨e, he, ks, hks, rfl⟩
    have : e.name ∈ o.flatMap OrderItem.names := hwf.perm.mem_iff.2 (List.mem_map.2 ⟨e, he, rfl⟩)
    obtain ⟨oi, hoi, hn⟩ := List.mem_flatMap.1 this
    exact ⟨oi, hoi, mem_itemTop.2 ⟨_, hn, e, dictEntry_of_mem hwf.nodup he, ks, hks, rfl⟩⟩

theorem tops_perm {es : List Entry} {o : List OrderItem} (hwf : WFs es o) :
    (tops es o).Perm (es.flatMap fun e => (listindices e.dims).map fun ks => .str e.name :: ks) := by
  have h1 : ∀ oi, (itemTop es oi).Perm (oi.names.flatMap fun n => ((dictEntry es n).map fun e =>
      (listindices e.dims).map fun ks => Key.str e.name :: ks).getD []) := by
    intro oi
    cases oi with
    | one n => simp [itemTop, OrderItem.names]
    | tup ns =>
      rw [itemTop, OrderItem.names]
      refine (intersperse_perm _).flatten.trans ?_
      rw [List.flatMap_def]
      induction ns with
      | nil => exact List.Perm.refl _
      | cons n ns ih =>
        simp only [List.map_cons, List.flatten_cons, List.flatten_append]
        refine List.Perm.append ?_ ih
        cases dictEntry es n with
        | none => exact List.Perm.refl _
        | some e =>
          simp only [Option.map_some, Option.getD_some]
          rw [← List.map_flatten, listindicesNest_flatten]
  rw [tops_eq]
  refine (flatMap_perm_fun _ _ _ fun oi _ => h1 oi).trans ?_
  rw [← List.flatMap_assoc]
  refine (List.Perm.flatMap_right _ hwf.perm).trans ?_
  rw [flatMap_map']
  apply List.Perm.of_eq
  apply List.flatMap_congr
  intro e he
  rw [dictEntry_of_mem hwf.nodup he]
  rfl

theorem tops_nodup {es : List Entry} {o : List OrderItem} (hwf : WFs es o) : (tops es o).Nodup := by
  rw [(tops_perm hwf).nodup_iff, List.nodup_flatMap]
  constructor
  · intro e _
    refine List.Nodup.map (fun a b h => (List.cons.inj h).2) ?_
    exact listindices_nodup _
  · have := hwf.nodup
    rw [List.Nodup, List.pairwise_map] at this
    refine this.imp ?_
    intro e e' hne
    rw [Function.onFun, List.disjoint_left]
    rintro t h1 h2
    obtain ⟨ks, _, rfl⟩ := List.mem_map.1 h1
    obtain ⟨ks', _, h⟩ := List.mem_map.1 h2
    exact hne (by injection (List.cons.inj h).1 with h; exact h.symm)

/-- Number of scalars of a repetition of an entry. -/
def topSize (es : List Entry) (t : CIdx) : ℕ :=
  match t with
  | .str n :: _ => ((dictEntry es n).map Entry.blockSize).getD 0
  | _ => 0

theorem topSize_eq {es : List Entry} (hn : (es.map Entry.name).Nodup) {e : Entry} (he : e ∈ es) (ks : CIdx) :
    topSize es (.str e.name :: ks) = e.blockSize := by
  rw [topSize, dictEntry_of_mem hn he]
  rfl

theorem wsum_expand {es : List Entry} {o : List OrderItem} (hwf : WFs es o) {t : CIdx} (h : t ∈ tops es o) :
    wsum es (expand es t) = topSize es t := by
  obtain ⟨e, he, ks, hks, rfl⟩ := (mem_tops hwf).1 h
  rw [expand_eq (dictEntry_of_mem hwf.nodup he), wsum_rep' hwf he hks, topSize_eq hwf.nodup he]

theorem wsum_expands {es : List Entry} {o : List OrderItem} (hwf : WFs es o) {A : List CIdx} (h : ∀ t ∈ A, t ∈ tops es o) :
    wsum es (A.flatMap (expand es)) = (A.map (topSize es)).sum := by
  rw [wsum_flatMap]
  congr 1
  apply List.map_congr_left
  intro t ht
  exact wsum_expand hwf (h t ht)

theorem sum_tops {es : List Entry} {o : List OrderItem} (hwf : WFs es o) :
    ((tops es o).map (topSize es)).sum = countAll es := by
  rw [← wsum_expands hwf fun _ h => h, ← leafList_tops, wsum_leafList hwf]

/-- The position of a repetition of an entry: after everything that precedes it in `traverseCanonicalIndex(limit=1)`. -/
theorem Built.top_pos {c : CS} {ls} (hb : Built c ls) (hwf : WFs c.struct.entries c.struct.order) {e : Entry}
    (he : e ∈ c.struct.entries) {ks : CIdx} (hks : InDims ks e.dims) {A B : List CIdx}
    (hAB : tops c.struct.entries c.struct.order = A ++ (.str e.name :: ks) :: B) :
    dictGet c.map (.str e.name :: ks) = match e with
      | .prim _ _ p => some ⟨p.sp, block ((A.map (topSize c.struct.entries)).sum) p.sp.nnz⟩
      | .nested _ _ es' o' => if leafList es' o' = [] then none
        else some (.col (block ((A.map (topSize c.struct.entries)).sum) (countAll es'))) := by
  have hA : ∀ t ∈ A, t ∈ tops c.struct.entries c.struct.order := fun t ht => by rw [hAB]; simp [ht]
  rw [← wsum_expands hwf hA]
  have hl : leafList c.struct.entries c.struct.order = A.flatMap (expand c.struct.entries) ++
      (e.kids.map fun c => .str e.name :: (ks ++ c)) ++ B.flatMap (expand c.struct.entries) := by
    rw [leafList_tops, hAB, List.flatMap_append, List.flatMap_cons, expand_eq (dictEntry_of_mem hwf.nodup he), List.append_assoc]
  cases e with
  | prim n d p =>
    rw [show (Entry.prim n d p).kids = [[]] from by simp [Entry.kids]] at hl
    exact hb.leaf_pos hwf (.prim he hks) (A := A.flatMap (expand c.struct.entries)) (B := B.flatMap (expand c.struct.entries)) (by
      rw [hl]; simp [Entry.name])
  | nested n d es' o' =>
    rw [kids_nested] at hl
    exact hb.node_pos hwf (.top he hks) (A := A.flatMap (expand c.struct.entries)) (B := B.flatMap (expand c.struct.entries)) hl

end CE.St
