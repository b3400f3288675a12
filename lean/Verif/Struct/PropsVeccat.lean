import Verif.Struct.EntryDef
import Verif.Struct.LemInv
import Verif.Struct.PropsPrio

/-! # `struct_MX`: assembling expressions (C52) -/

namespace CE.St

variable {V : Type}

/-! ## States of an `MXVeccatStruct` -/

/-- The matrices in a payload. -/
inductive Pay.Has : Pay V → SMat V → Prop
  | mat (m) : Pay.Has (.mat m) m
  | list {l p m} : p ∈ l → Pay.Has p m → Pay.Has (.list l) m
  | dict {l k p m} : (k, p) ∈ l → Pay.Has p m → Pay.Has (.dict l) m
  | rep {p m} : Pay.Has p m → Pay.Has (.rep p) m

theorem pyIndex_mem {α : Type} {l : List α} {i : ℤ} {a : α} (h : pyIndex l i = .ok a) : a ∈ l := by
  unfold pyIndex at h
  simp only at h
  generalize (if i < 0 then i + l.length else i) = j at h
  split at h
  · exact absurd h (by simp)
  · split at h
    · rename_i hg
      rw [← Except.ok.inj h]
      exact List.mem_of_getElem? hg
    · simp at h

/-- A property of all matrices in a payload is inherited by its parts. -/
theorem Pay.closed (P : SMat V → Prop) : PayClosed (V := V) fun pay => ∀ m, pay.Has m → P m where
  unpack := by
    intro pay i q h hu
    unfold payloadUnpack at hu
    cases i with
    | str => simp at hu
    | int i =>
      cases pay with
      | list l =>
        simp only at hu
        split at hu
        · simp at hu
        · intro m hm
          refine h m (.list ?_ hm)
          exact pyIndex_mem hu
      | rep e => simp only [Except.ok.injEq] at hu; subst hu; exact fun m hm => h m (.rep hm)
      | none => simp only [Except.ok.injEq] at hu; subst hu; exact h
      | num v => simp only [Except.ok.injEq] at hu; subst hu; exact h
      | mat m => simp only [Except.ok.injEq] at hu; subst hu; exact h
      | dict l => simp only [Except.ok.injEq] at hu; subst hu; exact h
  dict := by
    intro l h kv hkv m hm
    exact h m (.dict (k := kv.1) hkv hm)

/-- The objects that a program can reach: a new object, and what an assignment (successful or not) leaves. -/
inductive VReach (c : CS) : VObj V → Prop
  | new : VReach c (.empty c)
  | set {o} (pi : List (PIdx (PyFn V))) (pay : Pay V) : VReach c o → (∀ m, pay.Has m → m.WF) → VReach c (o.setitem pi pay).2

/-- The expression that is stored for a repetition of an entry. -/
def VObj.expr (o : VObj V) (t : CIdx) : Option (SMat V) := (dictGet o.mapping t).bind fun k => (o.storage[k]?).join

theorem mappingOf_get {ts : List CIdx} (h : ts.Nodup) (t : CIdx) (k : ℕ) :
    dictGet (mappingOf ts) t = some k ↔ ts[k]? = some t := by
  have hk : (ts.zipIdx.map (·.1)) = ts := by simp
  have h1 : dictGet (mappingOf ts) t = dictGet ts.zipIdx t := by
    show dictGet (dictUpdate [] ts.zipIdx) t = _
    rw [dictGet_dictUpdate _ _ (by rw [hk]; exact h)]
    simp [dictGet_nil]
  rw [h1]
  constructor
  · intro h2
    have := mem_of_dictGet h2
    exact (List.mem_zipIdx_iff_getElem?).1 this
  · intro h2
    exact dictGet_of_mem (by rw [hk]; exact h) ((List.mem_zipIdx_iff_getElem?).2 h2)

/-- What holds in every state. -/
structure VGood (c : CS) (o : VObj V) : Prop where
  cs : o.cs = c
  mapping : o.mapping = mappingOf (tops c.struct.entries c.struct.order)
  length : o.storage.length = (tops c.struct.entries c.struct.order).length
  stored : ∀ (k : ℕ) (t : CIdx) (m : SMat V), (tops c.struct.entries c.struct.order)[k]? = some t → o.storage[k]? = some (some m) →
    m.WF ∧ ∃ i, dictGet c.map t = some i ∧ i.sp = m.sp

/-- The part of the invariant about the storage. -/
def StGood (c : CS) (st : List (Option (SMat V))) : Prop :=
  st.length = (tops c.struct.entries c.struct.order).length ∧
  ∀ (k : ℕ) (t : CIdx) (m : SMat V), (tops c.struct.entries c.struct.order)[k]? = some t → st[k]? = some (some m) →
    m.WF ∧ ∃ i, dictGet c.map t = some i ∧ i.sp = m.sp

theorem inject_inv {c : CS} (hwf : WFs c.struct.entries c.struct.order) :
    DInv (StGood c) (fun pay : Pay V => ∀ m, pay.Has m → m.WF)
      (injectDisp (F := PyFn V) c.map (mappingOf (tops c.struct.entries c.struct.order))) where
  outer := fun _ _ _ _ _ _ => MInv.throw _
  call := by
    intro inner pay a x e hq st hst
    simp only [injectDisp]
    cases inner with
    | true => exact hst
    | false =>
      simp only [Bool.false_eq_true, if_false, inject]
      split
      · exact hst
      · cases hk : dictGet (mappingOf (tops c.struct.entries c.struct.order)) a with
        | none => exact hst
        | some k =>
          simp only
          cases hi : dictGet c.map a with
          | none => exact hst
          | some i =>
            cases pay with
            | mat m =>
              simp only
              split
              · exact hst
              · rename_i hsp
                have hsp : i.sp = m.sp := not_not.1 hsp
                rw [mappingOf_get (tops_nodup hwf)] at hk
                refine ⟨by rw [List.length_set]; exact hst.1, ?_⟩
                intro k' t m' ht hm'
                rw [List.getElem?_set] at hm'
                split at hm'
                · rename_i hkk
                  subst hkk
                  split at hm'
                  · have hm'' : m = m' := by simpa using hm'
                    subst hm''
                    rw [hk] at ht
                    cases ht
                    exact ⟨hq m (.mat m), i, hi, hsp⟩
                  · simp at hm'
                · exact hst.2 k' t m' ht hm'
            | _ => exact hst

theorem VObj.setitem_eq (o : VObj V) (pi : List (PIdx (PyFn V))) (pay : Pay V) :
    o.setitem pi pay = ((o.cs.struct.traverse (injectDisp o.cs.map o.mapping) pi pay o.storage).1.map fun _ => (),
      { o with storage := (o.cs.struct.traverse (injectDisp o.cs.map o.mapping) pi pay o.storage).2 }) := by
  unfold VObj.setitem
  rcases o.cs.struct.traverse (injectDisp o.cs.map o.mapping) pi pay o.storage with ⟨r, st⟩
  cases r <;> rfl

theorem VReach.good {c : CS} (hwf : WFs c.struct.entries c.struct.order) {o : VObj V} (h : VReach c o) : VGood c o := by
  induction h with
  | new =>
    refine ⟨rfl, ?_, ?_, ?_⟩
    · rw [VObj.empty, traverseCanonicalIndex_one]
    · rw [VObj.empty, traverseCanonicalIndex_one, List.length_map]
    · intro k t m _ hm
      simp only [VObj.empty, List.getElem?_map] at hm
      rcases hx : (c.struct.traverseCanonicalIndex 1)[k]? with _ | x
      · rw [hx] at hm; simp at hm
      · rw [hx] at hm; simp at hm
  | @set o1 pi pay _ hp ih =>
    obtain ⟨rfl, hm, hl, hs⟩ := ih
    rw [VObj.setitem_eq]
    have := Struct.traverse_inv (Pay.closed SMat.WF) (inject_inv hwf) o1.cs.struct pi pay hp _ (⟨hl, hs⟩ : StGood _ _)
    rw [← hm] at this
    exact ⟨rfl, hm, this.1, this.2⟩

/-! ## `.cat` -/

section
variable {c : CS} {o : VObj V}

theorem VGood.expr_at (h : VGood c o) (hwf : WFs c.struct.entries c.struct.order) {k : ℕ} {t : CIdx}
    (ht : (tops c.struct.entries c.struct.order)[k]? = some t) : o.expr t = (o.storage[k]?).join := by
  rw [VObj.expr, h.mapping, (mappingOf_get (tops_nodup hwf) t k).2 ht]
  rfl

theorem VGood.storage_eq (h : VGood c o) (hwf : WFs c.struct.entries c.struct.order) :
    o.storage = (tops c.struct.entries c.struct.order).map o.expr := by
  apply List.ext_getElem
  · rw [List.length_map, h.length]
  · intro k h1 h2
    rw [List.length_map] at h2
    rw [List.getElem_map, h.expr_at hwf (k := k) (List.getElem?_eq_getElem h2), List.getElem?_eq_getElem h1]
    rfl

theorem VGood.expr_size {ls} (hg : VGood c o) (hb : Built c ls) (hwf : WFs c.struct.entries c.struct.order) {t : CIdx}
    (ht : t ∈ tops c.struct.entries c.struct.order) {m : SMat V} (hm : o.expr t = some m) :
    m.data.length = topSize c.struct.entries t ∧ ∃ i, dictGet c.map t = some i ∧ i.sp = m.sp := by
  obtain ⟨k, hk⟩ := List.mem_iff_getElem?.1 ht
  have hst : o.storage[k]? = some (some m) := by
    rw [hg.storage_eq hwf, List.getElem?_map, hk, Option.map_some, hm]
  obtain ⟨hmw, i, hi, hsp⟩ := hg.stored k t m hk hst
  refine ⟨?_, i, hi, hsp⟩
  rw [hmw.2, ← hsp]
  obtain ⟨e, he, ks, hks, rfl⟩ := (mem_tops hwf).1 ht
  rw [topSize_eq hwf.nodup he]
  obtain ⟨A, B, hAB⟩ := List.append_of_mem ht
  have := hb.top_pos hwf he hks hAB
  rw [hi] at this
  cases e with
  | prim n d p => cases this; rfl
  | nested n d es' o' =>
    simp only at this
    split at this
    · simp at this
    · cases this
      simp [SMat.col, Sparsity.dense, Sparsity.positions, Entry.blockSize, block_length]

/-- **C52** (`.cat`): in every reachable state, `.cat` is the column of the elements of the stored expressions in the order of
`traverseCanonicalIndex(limit=1)`, with as many elements as the struct, if every repetition of every entry has an expression,
and raises otherwise. -/
theorem C52_cat {ls} (hb : Built c ls) (hwf : WFs c.struct.entries c.struct.order) (h : VReach c o) :
    ((∀ t ∈ c.struct.traverseCanonicalIndex 1, ∃ m, o.expr t = some m) →
      ∃ l, o.master = .ok l ∧ l.length = c.size ∧
        l = (c.struct.traverseCanonicalIndex 1).flatMap fun t => ((o.expr t).map SMat.data).getD []) ∧
    ((∃ t ∈ c.struct.traverseCanonicalIndex 1, o.expr t = none) →
      o.master = .error .generic ∧ ∀ [Zero V] [Add V] [Sub V] pi, o.getitem pi = .error .generic) := by
  have hg := h.good hwf
  rw [traverseCanonicalIndex_one]
  constructor
  · intro hall
    have hany : o.storage.any Option.isNone = false := by
      rw [hg.storage_eq hwf, List.any_map, List.any_eq_false]
      intro t ht
      obtain ⟨m, hm⟩ := hall t ht
      simp [hm]
    have hl : (o.storage.flatMap fun m => match m with
        | some m => m.data
        | none => []) = (tops c.struct.entries c.struct.order).flatMap fun t => ((o.expr t).map SMat.data).getD [] := by
      rw [hg.storage_eq hwf, flatMap_map']
      apply List.flatMap_congr
      intro t ht
      obtain ⟨m, hm⟩ := hall t ht
      rw [hm]
      rfl
    refine ⟨_, ?_, ?_, rfl⟩
    · rw [VObj.master, hany, if_neg (by simp)]
      exact congrArg _ hl
    · rw [hb.size_eq hwf, ← sum_tops hwf, List.length_flatMap]
      congr 1
      apply List.map_congr_left
      intro t ht
      obtain ⟨m, hm⟩ := hall t ht
      rw [hm, Option.map_some, Option.getD_some, (hg.expr_size hb hwf ht hm).1]
  · rintro ⟨t, ht, hn⟩
    have hm : o.master = .error .generic := by
      rw [VObj.master, if_pos]
      rw [hg.storage_eq hwf, List.any_map, List.any_eq_true]
      exact ⟨t, ht, by simp [hn]⟩
    refine ⟨hm, fun pi => ?_⟩
    rw [VObj.getitem, hm]
    rfl

/-! ## Reading and assigning -/

/-- **C52** (reading): if all expressions are present, every repetition of an entry without type 'symm' reads the expression
stored for it. -/
theorem C52_read [Zero V] [Add V] [Sub V] {ls} (hb : Built c ls) (hwf : WFs c.struct.entries c.struct.order) (h : VReach c o)
    (hall : ∀ t ∈ c.struct.traverseCanonicalIndex 1, ∃ m, o.expr t = some m)
    (t : CIdx) (ht : t ∈ c.struct.traverseCanonicalIndex 1) {p sp} (hp : IsPart c.struct.entries t p sp)
    (hs : ∀ q, p = some q → q.symm = false) (m : SMat V) (hm : o.expr t = some m) : o.getitem (t.map .ofKey) = .ok (.leaf m) := by
  obtain ⟨l, h1, h2, h3⟩ := (C52_cat hb hwf h).1 hall
  have hg := h.good hwf
  rw [traverseCanonicalIndex_one] at hall ht h3
  obtain ⟨i, g1, g2, g3, g4, g5, g6⟩ := getitem_plain hb hwf h2 hp hs
  rw [VObj.getitem, h1, hg.cs]
  show (⟨c, l, []⟩ : Obj V).getitem (t.map .ofKey) = _
  rw [g6]
  obtain ⟨A, B, hAB⟩ := List.append_of_mem ht
  have hstored := hb.stored_top hwf hAB h2
  rw [St.stored, g1] at hstored
  simp only at hstored
  have hA : ∀ t' ∈ A, (((o.expr t').map SMat.data).getD []).length = topSize c.struct.entries t' := by
    intro t' ht'
    have ht' : t' ∈ tops c.struct.entries c.struct.order := by rw [hAB]; simp [ht']
    obtain ⟨m', hm'⟩ := hall t' ht'
    rw [hm', Option.map_some, Option.getD_some, (hg.expr_size hb hwf ht' hm').1]
  obtain ⟨hlen, j, hj, hsp⟩ := hg.expr_size hb hwf ht hm
  rw [g1] at hj
  cases hj
  have hdata : (l.drop ((A.map (topSize c.struct.entries)).sum)).take (topSize c.struct.entries t) = m.data := by
    rw [h3, hAB, List.flatMap_append, List.flatMap_cons, hm, Option.map_some, Option.getD_some]
    have : (A.map (topSize c.struct.entries)).sum = (A.flatMap fun t => ((o.expr t).map SMat.data).getD []).length := by
      rw [List.length_flatMap]
      congr 1
      exact (List.map_congr_left hA).symm
    rw [this, List.drop_left, ← hlen, List.take_left]
  rw [hstored, hdata, ← g2, hsp]

/-- An assignment to a part is a single call of `inject`. -/
theorem VObj.setitem_part (o : VObj V) (hwf : WFs o.cs.struct.entries o.cs.struct.order) {a e sp}
    (h : IsPart o.cs.struct.entries a e sp) (x : List (PIdx (PyFn V))) (hx : e = none → x = []) (pay : Pay V) :
    o.setitem (a.map .ofKey ++ x) pay =
      (gen (inject o.cs.map o.mapping pay a (if x.isEmpty then none else some x) o.storage).1,
        { o with storage := (inject o.cs.map o.mapping pay a (if x.isEmpty then none else some x) o.storage).2 }) := by
  have := goStruct_part_extra (injectDisp (F := PyFn V) o.cs.map o.mapping) hwf h o.cs.struct.keys x hx false [] pay
  rw [List.nil_append] at this
  rw [VObj.setitem, Struct.traverse, this, callLeaf]
  simp only [injectDisp, M.bind, M.pure, Bool.false_eq_true, if_false]
  rcases inject o.cs.map o.mapping pay a (if x.isEmpty then none else some x) o.storage with ⟨r, m⟩
  cases r <;> rfl

/-- **C52** (assigning): an expression with the pattern of the repetition is stored, and nothing else changes. -/
theorem C52_assign {ls} (hb : Built c ls) (hwf : WFs c.struct.entries c.struct.order) (h : VReach c o)
    (t : CIdx) (ht : t ∈ c.struct.traverseCanonicalIndex 1) {p} (m : SMat V) (hp : IsPart c.struct.entries t p m.sp) :
    (o.setitem (t.map .ofKey) (.mat m)).1 = .ok () ∧
      ∀ t' ∈ c.struct.traverseCanonicalIndex 1, (o.setitem (t.map .ofKey) (.mat m)).2.expr t' = if t' = t then some m else o.expr t' := by
  have hg := h.good hwf
  rw [traverseCanonicalIndex_one] at ht ⊢
  obtain ⟨k, hk⟩ := List.mem_iff_getElem?.1 ht
  obtain ⟨i, hi, _, _, _, hsp⟩ := hb.part hwf hp
  have hset : o.setitem (t.map .ofKey) (.mat m) = (.ok (), { o with storage := o.storage.set k (some m) }) := by
    have h1 := o.setitem_part (by rw [hg.cs]; exact hwf) (by rw [hg.cs]; exact hp) [] (fun _ => rfl) (.mat m)
    rw [List.append_nil] at h1
    rw [h1, inject]
    simp only [List.isEmpty_nil, if_true, Option.isSome_none, Bool.false_eq_true, if_false]
    rw [hg.mapping, (mappingOf_get (tops_nodup hwf) t k).2 hk, hg.cs]
    simp only [hi, hsp, ne_eq, not_true_eq_false, if_false]
    rfl
  rw [hset]
  refine ⟨rfl, ?_⟩
  intro t' ht'
  obtain ⟨k', hk'⟩ := List.mem_iff_getElem?.1 ht'
  have hlt : k < o.storage.length := by rw [hg.length]; exact (List.getElem?_eq_some_iff.1 hk).1
  rw [hg.expr_at hwf hk', VObj.expr]
  simp only
  rw [hg.mapping, (mappingOf_get (tops_nodup hwf) t' k').2 hk', Option.bind_some, List.getElem?_set]
  by_cases hkk : k = k'
  · subst hkk
    rw [hk] at hk'
    cases hk'
    simp [hlt]
  · rw [if_neg hkk, if_neg]
    rintro rfl
    have h1 := (mappingOf_get (tops_nodup hwf) t' k).2 hk
    rw [(mappingOf_get (tops_nodup hwf) t' k').2 hk'] at h1
    exact hkk (Option.some.inj h1).symm

/-- **C52** (rejected assignments): an expression with another pattern, anything that is no expression, an additional index
behind an element, and a part of a nested struct raise and leave the object as it was. -/
theorem C52_reject {ls} (hb : Built c ls) (hwf : WFs c.struct.entries c.struct.order) (h : VReach c o)
    {t : CIdx} {p sp} (hp : IsPart c.struct.entries t p sp) (x : List (PIdx (PyFn V))) (hx : p = none → x = []) (pay : Pay V)
    (hbad : x ≠ [] ∨ t ∉ c.struct.traverseCanonicalIndex 1 ∨ ∀ m, pay = .mat m → m.sp ≠ sp) :
    o.setitem (t.map .ofKey ++ x) pay = (.error .generic, o) := by
  have hg := h.good hwf
  rw [traverseCanonicalIndex_one] at hbad
  rw [o.setitem_part (by rw [hg.cs]; exact hwf) (by rw [hg.cs]; exact hp) x hx pay]
  suffices hinj : ∃ e, inject o.cs.map o.mapping pay t (if x.isEmpty then none else some x) o.storage = (.error e, o.storage) by
    obtain ⟨e, he⟩ := hinj
    rw [he]
    rfl
  rw [inject]
  cases x with
  | cons y ys => exact ⟨_, rfl⟩
  | nil =>
    simp only [List.isEmpty_nil, if_true, Option.isSome_none, Bool.false_eq_true, if_false]
    cases hk : dictGet o.mapping t with
    | none => exact ⟨_, rfl⟩
    | some k =>
      obtain ⟨i, hi, _, _, _, hsp⟩ := hb.part hwf hp
      rw [hg.cs, hi]
      simp only
      have hbad : ∀ m, pay = .mat m → m.sp ≠ sp := by
        rcases hbad with h1 | h1 | h1
        · exact absurd rfl h1
        · rw [hg.mapping, mappingOf_get (tops_nodup hwf)] at hk
          exact absurd (List.mem_of_getElem? hk) h1
        · exact h1
      cases pay with
      | mat m =>
        simp only
        rw [if_pos]
        · exact ⟨_, rfl⟩
        · rw [hsp]; exact fun h => hbad m rfl h.symm
      | _ => exact ⟨_, rfl⟩

end

/-- **C52** (empty nested structs): a struct with an entry whose nested struct has no elements is never completed; reading raises
after every sequence of assignments. -/
theorem C52_empty {c : CS} {o : VObj V} {ls} (hb : Built c ls) (hwf : WFs c.struct.entries c.struct.order) (h : VReach c o) (n : String) (ds : List ℕ)
    (es : List Entry) (ord : List OrderItem) (he : .nested n ds es ord ∈ c.struct.entries) (hne : ∀ a p, ¬ IsLeaf es a p)
    (hds : ∃ ks, InDims ks ds) : o.master = .error .generic ∧ ∀ [Zero V] [Add V] [Sub V] pi, o.getitem pi = .error .generic := by
  obtain ⟨ks, hks⟩ := hds
  have ht : (.str n :: ks) ∈ tops c.struct.entries c.struct.order := (mem_tops hwf).2 ⟨_, he, ks, hks, rfl⟩
  refine (C52_cat hb hwf h).2 ⟨.str n :: ks, by rw [traverseCanonicalIndex_one]; exact ht, ?_⟩
  cases hm : o.expr (.str n :: ks) with
  | none => rfl
  | some m =>
    obtain ⟨_, i, hi, _⟩ := (h.good hwf).expr_size hb hwf ht hm
    obtain ⟨A, B, hAB⟩ := List.append_of_mem ht
    have := hb.top_pos hwf he hks hAB
    rw [show (Entry.nested n ds es ord).name = n from rfl, hi] at this
    simp only at this
    rw [if_pos] at this
    · cases this
    · cases hl : leafList es ord with
      | nil => rfl
      | cons a l =>
        obtain ⟨p, hp⟩ := (mem_leafList (hwf.sub _ _ _ _ he)).1 (show a ∈ leafList es ord by rw [hl]; simp)
        exact absurd hp (hne a p)

/-! ## Example: two entries -/

def vecStruct : Struct := ⟨[.prim "x" [] ⟨.dense 1 1, false, none, none⟩, .prim "y" [] ⟨.dense 2 1, false, none, none⟩], [.one "x", .one "y"]⟩

theorem vecStruct_wf : WFs vecStruct.entries vecStruct.order := by
  refine .mk (by simp [vecStruct, Entry.name]) (List.Perm.refl _) ?_ (by simp [vecStruct])
  intro n d p h
  simp only [vecStruct, List.mem_cons, Entry.prim.injEq, List.not_mem_nil, or_false] at h
  rcases h with ⟨_, _, rfl⟩ | ⟨_, _, rfl⟩ <;> exact Sparsity.dense_canon _ _

theorem vecStruct_tops : vecStruct.traverseCanonicalIndex 1 = [[.str "x"], [.str "y"]] := by
  rw [traverseCanonicalIndex_one]
  rfl

/-- Reading raises before both entries are assigned; a wrong shape is rejected; the latest expressions count. -/
example : ∃ c, CS.ofStruct vecStruct = .ok c ∧
    (VObj.empty c : VObj ℤ).getitem [.str "x"] = .error .generic ∧
    (VObj.empty c : VObj ℤ).setitem [.str "y"] (.mat (.scalar 3)) = (.error .generic, .empty c) ∧
    ∃ o1 o2 o3 : VObj ℤ, (VObj.empty c).setitem [.str "y"] (.mat ⟨.dense 2 1, [8, 9]⟩) = (.ok (), o1) ∧
      o1.master = .error .generic ∧ o1.setitem [.str "x"] (.mat (.scalar 3)) = (.ok (), o2) ∧ o2.master = .ok [3, 8, 9] ∧
      o2.setitem [.str "x"] (.mat (.scalar 7)) = (.ok (), o3) ∧ o3.master = .ok [7, 8, 9] := by
  obtain ⟨c, ls, hc, hs, hb⟩ := ofStruct_built vecStruct_wf
  have hwf : WFs c.struct.entries c.struct.order := by rw [hs]; exact vecStruct_wf
  have ht : c.struct.traverseCanonicalIndex 1 = [[.str "x"], [.str "y"]] := by rw [hs]; exact vecStruct_tops
  have hx : IsPart c.struct.entries [.str "x"] (some ⟨.dense 1 1, false, none, none⟩) (.dense 1 1) :=
    .leaf (p := ⟨.dense 1 1, false, none, none⟩) (.prim (by rw [hs]; simp [vecStruct]) .nil)
  have hy : IsPart c.struct.entries [.str "y"] (some ⟨.dense 2 1, false, none, none⟩) (.dense 2 1) :=
    .leaf (p := ⟨.dense 2 1, false, none, none⟩) (.prim (by rw [hs]; simp [vecStruct]) .nil)
  have hemp : ∀ t ∈ c.struct.traverseCanonicalIndex 1, (VObj.empty c : VObj ℤ).expr t = none := by
    intro t h
    rw [traverseCanonicalIndex_one] at h
    obtain ⟨k, hk⟩ := List.mem_iff_getElem?.1 h
    rw [((VReach.new (V := ℤ) (c := c)).good hwf).expr_at hwf hk]
    simp only [VObj.empty, List.getElem?_map]
    cases (c.struct.traverseCanonicalIndex 1)[k]? <;> rfl
  have set : ∀ (o : VObj ℤ), VReach c o → ∀ n (m : SMat ℤ) p, IsPart c.struct.entries [.str n] p m.sp → m.WF →
      [Key.str n] ∈ c.struct.traverseCanonicalIndex 1 → ∃ o', o.setitem [.str n] (.mat m) = (.ok (), o') ∧ VReach c o' ∧
      ∀ t' ∈ c.struct.traverseCanonicalIndex 1, o'.expr t' = if t' = [.str n] then some m else o.expr t' := by
    intro o ho n m p hp hm hmem
    have hs := C52_assign hb hwf ho [.str n] hmem m hp
    exact ⟨(o.setitem [.str n] (.mat m)).2, Prod.ext hs.1 rfl, .set _ _ ho (by rintro m' ⟨⟩; exact hm), hs.2⟩
  have hsc : ∀ v : ℤ, (SMat.scalar v).WF := fun v => ⟨Sparsity.dense_canon 1 1, rfl⟩
  obtain ⟨o1, s1, r1, e1⟩ := set (.empty c) .new "y" ⟨.dense 2 1, [8, 9]⟩ _ hy ⟨Sparsity.dense_canon 2 1, rfl⟩ (by rw [ht]; simp)
  obtain ⟨o2, s2, r2, e2⟩ := set o1 r1 "x" (.scalar 3) _ hx (hsc 3) (by rw [ht]; simp)
  obtain ⟨o3, s3, r3, e3⟩ := set o2 r2 "x" (.scalar 7) _ hx (hsc 7) (by rw [ht]; simp)
  rw [ht] at e1 e2 e3 hemp
  have cat : ∀ (o : VObj ℤ) (a b : SMat ℤ), VReach c o → o.expr [.str "x"] = some a → o.expr [.str "y"] = some b →
      o.master = .ok (a.data ++ b.data) := by
    intro o a b ho ha hb'
    obtain ⟨l, h1, _, h3⟩ := (C52_cat hb hwf ho).1 (by rw [ht]; simp [ha, hb'])
    rw [h1, h3, ht]
    simp [ha, hb']
  have x1 : o1.expr [.str "x"] = none := by rw [e1 _ (by simp), if_neg (by simp), hemp _ (by simp)]
  have y1 : o1.expr [.str "y"] = some ⟨.dense 2 1, [8, 9]⟩ := by rw [e1 _ (by simp), if_pos rfl]
  refine ⟨c, hc, ?_, ?_, o1, o2, o3, s1, ?_, s2, ?_, s3, ?_⟩
  · exact ((C52_cat hb hwf .new).2 ⟨[.str "x"], by rw [ht]; simp, hemp _ (by simp)⟩).2 _
  · refine C52_reject hb hwf .new hy [] (fun _ => rfl) _ (.inr (.inr ?_))
    rintro m ⟨⟩
    decide
  · exact ((C52_cat hb hwf r1).2 ⟨[.str "x"], by rw [ht]; simp, x1⟩).1
  · refine cat o2 (.scalar 3) ⟨.dense 2 1, [8, 9]⟩ r2 ?_ ?_
    · rw [e2 _ (by simp), if_pos rfl]
    · rw [e2 _ (by simp), if_neg (by simp), y1]
  · refine cat o3 (.scalar 7) ⟨.dense 2 1, [8, 9]⟩ r3 ?_ ?_
    · rw [e3 _ (by simp), if_pos rfl]
    · rw [e3 _ (by simp), if_neg (by simp), e2 _ (by simp), if_neg (by simp), y1]

end CE.St
