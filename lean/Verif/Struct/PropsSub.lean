import Verif.Struct.Sub
import Verif.Struct.PropsPrefix

/-! # The struct of a nested entry: C69 -/

namespace CE.St

variable {V : Type}

theorem find?_rev_name {es : List Entry} (hn : (es.map Entry.name).Nodup) {e : Entry} (he : e ∈ es) :
    es.reverse.find? (·.name = e.name) = some e := by
  cases h : es.reverse.find? (·.name = e.name) with
  | none =>
    have := List.find?_eq_none.1 h e (List.mem_reverse.2 he)
    simp at this
  | some e' =>
    have h1 := List.find?_some h
    have h2 := List.mem_reverse.1 (List.mem_of_find?_eq_some h)
    rw [eq_of_name hn h2 he (by simpa using h1)]

/-- **C69** `getStruct(name)` gives the struct of the entry with this name; it raises for unknown names and for entries that are
not nested. -/
theorem C69_getStruct (s : Struct) (hwf : WFs s.entries s.order) (c : CS) (hc : CS.ofStruct s = .ok c) (name : String) :
    (∀ d es o, .nested name d es o ∈ s.entries → ∃ c', c.getStruct name = .ok c' ∧ c'.struct = ⟨es, o⟩) ∧
    (∀ d p, .prim name d p ∈ s.entries → c.getStruct name = .error .generic) ∧
    (name ∉ s.entries.map Entry.name → c.getStruct name = .error .attribute) := by
  obtain ⟨c2, ls, h1, rfl, hb⟩ := ofStruct_built hwf
  rw [hc] at h1
  cases h1
  refine ⟨fun d es o he => ?_, fun d p he => ?_, fun hn => ?_⟩
  · obtain ⟨c', ls', h2, h3, _⟩ := ofStruct_built (s := ⟨es, o⟩) (hwf.sub _ _ _ _ he)
    have := find?_rev_name hwf.nodup he
    rw [Entry.name] at this
    exact ⟨c', by rw [CS.getStruct, this, ← h2], h3⟩
  · have := find?_rev_name hwf.nodup he
    rw [Entry.name] at this
    rw [CS.getStruct, this]
  · have : c.struct.entries.reverse.find? (·.name = name) = none := by
      rw [List.find?_eq_none]
      intro e he h
      exact hn (List.mem_map.2 ⟨e, List.mem_reverse.1 he, by simpa using h⟩)
    rw [CS.getStruct, this]

theorem List.split3 (l : List V) (a b : ℕ) (h : a + b ≤ l.length) :
    ∃ pre sub post, l = pre ++ sub ++ post ∧ pre.length = a ∧ sub.length = b := by
  refine ⟨l.take a, (l.drop a).take b, (l.drop a).drop b, ?_, by simp; omega, by simp; omega⟩
  rw [List.append_assoc, List.take_append_drop, List.take_append_drop]

/-- **C69** Let `t = s.getStruct(name)` for a nested entry with at least one element and let `a` be its name with one repeat index
per dimension. Then `t(s[a])` is an object of its own: `t(s[a])[q]` reads what `s[a, q]` reads, for every power index `q`; and
`s[a, q] = v` does what `b = t(s[a]); b[q] = v; s[a] = b` does. -/
theorem C69_block [Zero V] [Add V] [Sub V] (s : Struct) (hwf : WFs s.entries s.order) (c : CS) (hc : CS.ofStruct s = .ok c)
    (name : String) (dims : List ℕ) (es' : List Entry) (o' : List OrderItem) (he : .nested name dims es' o' ∈ s.entries)
    (hne : ∃ d p, IsLeaf es' d p) (ks : CIdx) (hks : InDims ks dims) (nan : V) (master : List V) (hlen : master.length = c.size) :
    ∃ t m b, c.getStruct name = .ok t ∧
      (⟨c, master, []⟩ : Obj V).getitem ((.str name :: ks).map .ofKey) = .ok (.leaf m) ∧
      callDM nan t (.mat m) = .ok b ∧
      ∀ q : List (PIdx (PyFn V)), (∃ p ∈ q, ∀ f, p ≠ .fn f) → (∀ f, .fn f ∈ q → f.Rearranges) →
        b.getitem q = (⟨c, master, []⟩ : Obj V).getitem ((.str name :: ks).map .ofKey ++ q) ∧
        ∀ v, ∃ r b' w, b.setitem q v = (r, b') ∧
          (⟨c, master, []⟩ : Obj V).setitem ((.str name :: ks).map .ofKey ++ q) v = (r, w) ∧
          (⟨c, master, []⟩ : Obj V).setitem ((.str name :: ks).map .ofKey) (.mat (.col b'.master)) = (.ok (), w) := by
  have hnode : IsNode s.entries (.str name :: ks) es' o' := .top he hks
  obtain ⟨t, ht, hts⟩ := (C69_getStruct s hwf c hc name).1 _ _ _ he
  obtain ⟨c2, ls, h1, rfl, hb⟩ := ofStruct_built hwf
  rw [hc] at h1
  cases h1
  obtain ⟨c', ls', h1', h2', hb'⟩ := ofStruct_built (s := ⟨es', o'⟩) (hnode.wf hwf)
  have htc : t = c' := by
    have h := find?_rev_name hwf.nodup he
    rw [Entry.name] at h
    rw [CS.getStruct, h] at ht
    have ht' : CS.ofStruct ⟨es', o'⟩ = .ok t := ht
    rw [h1'] at ht'
    cases ht'
    rfl
  subst htc
  obtain ⟨A, B, hAB⟩ := hnode.infix hwf
  have hsz := wsum_le_size hb hwf hnode hb' h2' hAB.symm
  obtain ⟨pre, sub, post, rfl, hpre, hsub⟩ := List.split3 master (wsum c.struct.entries A) t.size (by omega)
  have hw' : WFs t.struct.entries t.struct.order := by rw [h2']; exact hnode.wf hwf
  have hm : Moved c t (.str name :: ks) pre.length :=
    ⟨by rw [hpre]; exact hb.get_shift hwf hnode hb' h2' hAB.symm, fun d m hd => hb'.get_lt hw' hd⟩
  obtain ⟨dl, pl, hl⟩ := hne
  have hpart : IsPart c.struct.entries (.str name :: ks) none (.dense (countAll es') 1) := .node hnode hl
  have hcount : t.size = countAll es' := by rw [hb'.size_eq hw', h2']
  have hpos := hb.node_pos hwf hnode hAB.symm
  rw [if_neg fun h => (leafList_nil_iff (hnode.wf hwf)).1 h _ _ hl] at hpos
  have hwsum : wsum es' (leafList es' o') = t.size := by rw [hcount, wsum_leafList (hnode.wf hwf)]
  obtain ⟨i, hg, hsp, _, _, _, hread⟩ := getitem_plain hb hwf hlen hpart (by simp)
  rw [hpos] at hg
  cases hg
  have hdata : ∀ s' : List V, s'.length = t.size →
      ((List.range t.size).map fun j => (pre ++ s' ++ post).getD (pre.length + j) 0) = s' := by
    intro s' hs'
    apply List.ext_getElem
    · simp [hs']
    · intro k h3 h4
      simp only [List.getElem_map, List.getElem_range]
      rw [List.getD_eq_getElem?_getD, List.append_assoc, List.getElem?_append_right (by omega), Nat.add_sub_cancel_left,
        List.getElem?_append_left h4, List.getElem?_eq_getElem h4]
      rfl
  have hm0 : (SMat.col (block (wsum c.struct.entries A) (countAll es'))).data.map (fun k => (pre ++ sub ++ post).getD k 0) = sub := by
    refine Eq.trans ?_ (hdata sub hsub)
    rw [SMat.col, block, List.map_map, hcount, hpre]
    rfl
  rw [hm0, ← hcount] at hread
  have ha' : IsNode c.struct.entries (.str name :: ks) t.struct.entries t.struct.order := by rw [h2']; exact hnode
  refine ⟨t, _, _, ht, hread, (C48_column nan t sub hsub).1, ?_⟩
  intro q hq hf
  have hq' : ∃ p ∈ q, p.isFn = false := by
    obtain ⟨p, hp, h⟩ := hq
    refine ⟨p, hp, ?_⟩
    cases p with
    | fn f => exact absurd rfl (h f)
    | _ => rfl
  have hf' : Fns PyFn.Rearranges q := by
    rintro p hp f rfl
    exact hf f hp
  obtain ⟨h3, h4⟩ := moved_access (post := post) hwf ha' hm hsub q hq' hf'
  refine ⟨h3.symm, fun v => ?_⟩
  obtain ⟨sub', h5, h6, h7⟩ := h4 v
  refine ⟨_, _, _, h6, h7, ?_⟩
  have hlen' : (pre ++ sub' ++ post).length = c.size := by
    rw [← hlen]
    simp only [List.length_append, h5, hsub]
  obtain ⟨i, hci, hisp, hw⟩ := C43_write_read c.struct hwf c hc _ hlen _ none _ hpart (by simp)
  obtain ⟨master', h8, h9, h10, h11, _⟩ := hw (.mat (.col sub')) (.col sub') (.mat _)
    ⟨Sparsity.dense_canon _ _, by simp [SMat.col, Sparsity.dense, Sparsity.positions_length]⟩ _
    (.same (by simp [SMat.col, Sparsity.dense, h5, hcount]) rfl)
  rw [h8]
  have hlm : master'.length = c.size := by rw [h9, hlen]
  obtain ⟨i2, hg2, _, _, _, _, hread2⟩ := getitem_plain hb hwf hlm hpart (by simp)
  rw [hpos] at hg2
  cases hg2
  have hii : i = SMat.col (block (wsum c.struct.entries A) (countAll es')) := by
    have := c.i_node (V := V) hwf hnode
    rw [hci, hpos] at this
    cases this
    rfl
  subst hii
  rw [h10] at hread2
  have hval : (Sparsity.dense (countAll es') 1).nz.map (SMat.col sub').at' =
      (SMat.col (block (wsum c.struct.entries A) (countAll es'))).data.map fun k => master'.getD k 0 :=
    (SMat.mk.inj (Tree.leaf.inj (Except.ok.inj hread2))).2
  have hnz : (Sparsity.dense (countAll es') 1).nz = (List.range t.size).map fun i => (i, 0) := by
    simp [Sparsity.dense, Sparsity.positions, hcount]
  have hcol : (Sparsity.dense (countAll es') 1).nz.map (SMat.col sub').at' = sub' := by
    have := SMat.toColumn_dense (l := sub') (n := t.size) h5
    rw [SMat.toColumn] at this
    rw [hnz, List.map_map, SMat.col, h5]
    exact this
  rw [hcol] at hval
  have hk : ∀ k, k ∈ (SMat.col (block (wsum c.struct.entries A) (countAll es'))).data ↔
      pre.length ≤ k ∧ k < pre.length + t.size := by
    intro k
    rw [SMat.col, block, List.mem_map, hpre, hcount]
    constructor
    · rintro ⟨j, hj, rfl⟩
      rw [List.mem_range] at hj
      omega
    · intro h
      exact ⟨k - wsum c.struct.entries A, List.mem_range.2 (by omega), by omega⟩
  have hfin : master' = pre ++ sub' ++ post := by
    apply List.ext_getElem?
    intro k
    by_cases h12 : k < pre.length
    · rw [h11 k (by rw [hk]; omega), List.append_assoc, List.append_assoc, List.getElem?_append_left h12,
        List.getElem?_append_left h12]
    · by_cases h13 : k < pre.length + t.size
      · have hj := congrArg (fun l : List V => l[k - pre.length]?) hval
        simp only [SMat.col, block, List.map_map, List.getElem?_map] at hj
        rw [List.getElem?_range (by omega)] at hj
        simp only [Option.map_some, Function.comp] at hj
        rw [show wsum c.struct.entries A + (k - pre.length) = k by omega, List.getD_eq_getElem?_getD,
          List.getElem?_eq_getElem (l := master') (by omega)] at hj
        rw [List.append_assoc, List.getElem?_append_right (by omega), List.getElem?_append_left (by omega), hj,
          List.getElem?_eq_getElem (l := master') (by omega)]
        rfl
      · rw [h11 k (by rw [hk]; omega), List.getElem?_append_right (by rw [List.length_append]; omega),
          List.getElem?_append_right (by rw [List.length_append]; omega), List.length_append, List.length_append, h5, hsub]
  rw [hfin]

/-- In `exStruct`: `s.getStruct("n")` applied to the second repetition of `n` reads like `s["n", 1, ...]`; `"x"` is not
nested. -/
example (c : CS) (hc : CS.ofStruct exStruct = .ok c) (master : List ℚ) (hlen : master.length = c.size) :
    (∃ t m b, c.getStruct "n" = .ok t ∧ (⟨c, master, []⟩ : Obj ℚ).getitem [.str "n", .int 1] = .ok (.leaf m) ∧
      callDM 0 t (.mat m) = .ok b ∧ b.getitem [.str "P"] = (⟨c, master, []⟩ : Obj ℚ).getitem [.str "n", .int 1, .str "P"]) ∧
    c.getStruct "x" = .error .generic ∧ c.getStruct "y" = .error .attribute := by
  have hn : Entry.nested "n" [2] exNested [.one "u", .one "P"] ∈ exStruct.entries := by simp [exStruct]
  have hx : Entry.prim "x" [] ⟨.dense 2 1, false, none, none⟩ ∈ exStruct.entries := by simp [exStruct]
  have hks : InDims [.int 1] [2] := .cons ⟨1, by decide, rfl⟩ .nil
  obtain ⟨t, m, b, h1, h2, h3, h4⟩ := C69_block exStruct exStruct_wf c hc "n" [2] _ _ hn
    ⟨_, _, .prim (ks := []) List.mem_cons_self .nil⟩ _ hks 0 master hlen
  refine ⟨⟨t, m, b, h1, h2, h3, (h4 [.str "P"] ⟨_, List.mem_cons_self, by simp⟩ (by simp)).1⟩,
    (C69_getStruct exStruct exStruct_wf c hc "x").2.1 _ _ hx, (C69_getStruct exStruct exStruct_wf c hc "y").2.2 (by decide)⟩

end CE.St
