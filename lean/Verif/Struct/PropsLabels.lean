import Verif.Struct.Labels
import Verif.Struct.PropsLayout2
import Verif.Struct.LemWrite

/-! # C67: canonical indices and labels of the positions -/

namespace CE.St

/-- Every name in a struct, also in nested structs, satisfies `P`. -/
inductive Names (P : String → Prop) : List Entry → Prop
  | mk {es : List Entry} (name : ∀ e ∈ es, P e.name) (sub : ∀ n d es' o, Entry.nested n d es' o ∈ es → Names P es') :
      Names P es

/-- No comma. -/
def NoComma (s : String) : Prop := ',' ∉ s.toList

theorem append_comma {a b r r' : List Char} (ha : ',' ∉ a) (hb : ',' ∉ b) (h : a ++ ',' :: r = b ++ ',' :: r') :
    a = b ∧ r = r' := by
  induction a generalizing b with
  | nil =>
    cases b with
    | nil => exact ⟨rfl, (List.cons.inj h).2⟩
    | cons x b => exact absurd (by rw [← (List.cons.inj h).1]; exact List.mem_cons_self) hb
  | cons x a ih =>
    cases b with
    | nil => exact absurd (by rw [(List.cons.inj h).1]; exact List.mem_cons_self) ha
    | cons y b =>
      obtain ⟨h1, h2⟩ := List.cons.inj h
      obtain ⟨h3, h4⟩ := ih (fun h => ha (List.mem_cons_of_mem _ h)) (fun h => hb (List.mem_cons_of_mem _ h)) h2
      exact ⟨by rw [h1, h3], h4⟩

theorem joinComma_cons (a x : String) (l : List String) : joinComma (a :: x :: l) = a ++ "," ++ joinComma (x :: l) := by
  rw [joinComma]
  simp

theorem joinComma_inj : ∀ {l l' : List String}, l ≠ [] → l' ≠ [] → (∀ s ∈ l, NoComma s) → (∀ s ∈ l', NoComma s) →
    joinComma l = joinComma l' → l = l'
  | [], _, h, _, _, _, _ => absurd rfl h
  | _, [], _, h, _, _, _ => absurd rfl h
  | [a], [b], _, _, _, _, h => by rw [joinComma, joinComma] at h; rw [h]
  | [a], b :: y :: l', _, _, h1, _, h => by
    rw [joinComma_cons, joinComma] at h
    exact absurd (by rw [h]; simp) (h1 a List.mem_cons_self)
  | a :: x :: l, [b], _, _, _, h1, h => by
    rw [joinComma_cons, joinComma] at h
    exact absurd (by rw [← h]; simp) (h1 b List.mem_cons_self)
  | a :: x :: l, b :: y :: l', _, _, h1, h2, h => by
    rw [joinComma_cons, joinComma_cons] at h
    have := congrArg String.toList h
    simp only [String.toList_append, List.append_assoc] at this
    obtain ⟨h3, h4⟩ := append_comma (h1 a List.mem_cons_self) (h2 b List.mem_cons_self) this
    have := joinComma_inj (l := x :: l) (l' := y :: l') (by simp) (by simp)
      (fun s hs => h1 s (List.mem_cons_of_mem _ hs)) (fun s hs => h2 s (List.mem_cons_of_mem _ hs)) (String.toList_inj.1 h4)
    rw [this, String.toList_inj.1 h3]

theorem toStr_nat (i : ℕ) : (Key.int i).toStr = Nat.repr i := rfl

theorem toStr_nat_noComma (i : ℕ) : NoComma (Key.int i).toStr := by
  rw [toStr_nat, NoComma, Nat.toList_repr]
  intro h
  have := Nat.isDigit_of_mem_toDigits (by decide) (by decide) h
  revert this
  decide

theorem toStr_nat_inj {i j : ℕ} (h : (Key.int i).toStr = (Key.int j).toStr) : i = j := by
  rw [toStr_nat, toStr_nat] at h
  have := congrArg (fun s => Nat.ofDigitChars 10 (String.toList s) 0) h
  simpa only [Nat.toList_repr, Nat.ofDigitChars_ten_toDigits] using this

theorem InDims.noComma {ks : CIdx} {ds : List ℕ} (h : InDims ks ds) : ∀ k ∈ ks, NoComma k.toStr := by
  induction h with
  | nil => simp
  | cons h _ ih =>
    obtain ⟨i, _, rfl⟩ := h
    intro k hk
    rcases List.mem_cons.1 hk with rfl | hk
    · exact toStr_nat_noComma i
    · exact ih k hk

theorem IsLeaf.noComma {es c p} (h : IsLeaf es c p) (hn : Names NoComma es) : ∀ k ∈ c, NoComma k.toStr := by
  induction h with
  | @prim es n dims p ks he hk =>
    cases hn with
    | mk h1 h2 =>
      intro k hk'
      rcases List.mem_cons.1 hk' with rfl | hk'
      · exact h1 _ he
      · exact hk.noComma k hk'
  | @nested es n dims es' o ks c p he hk _ ih =>
    cases hn with
    | mk h1 h2 =>
      intro k hk'
      rcases List.mem_cons.1 hk' with rfl | hk'
      · exact h1 _ he
      · rcases List.mem_append.1 hk' with hk' | hk'
        · exact hk.noComma k hk'
        · exact ih (h2 _ _ _ _ he) k hk'

theorem InDims.toStr_inj {ks ks' : CIdx} {ds : List ℕ} (h : InDims ks ds) (h' : InDims ks' ds) {r r' : List String}
    (e : ks.map Key.toStr ++ r = ks'.map Key.toStr ++ r') : ks = ks' ∧ r = r' := by
  induction h generalizing ks' with
  | nil => cases h'; exact ⟨rfl, e⟩
  | cons h _ ih =>
    cases h' with
    | cons h1 h2 =>
      obtain ⟨i, _, rfl⟩ := h
      obtain ⟨j, _, rfl⟩ := h1
      obtain ⟨e1, e2⟩ := List.cons.inj e
      obtain ⟨rfl, rfl⟩ := ih h2 e2
      rw [toStr_nat_inj e1]
      exact ⟨rfl, rfl⟩

/-- In a struct, the canonical index of an element can be read off the strings. -/
theorem IsLeaf.toStr_inj {es o c p} (hwf : WFs es o) (h : IsLeaf es c p) {c' p'} (h' : IsLeaf es c' p') {r r' : List String}
    (e : c.map Key.toStr ++ r = c'.map Key.toStr ++ r') : c = c' ∧ r = r' := by
  induction h generalizing o c' with
  | @prim es n dims p ks he hk =>
    cases h' with
    | @prim _ n' dims' p' ks' he' hk' =>
      obtain ⟨e1, e2⟩ := List.cons.inj e
      have := List.inj_on_of_nodup_map hwf.nodup he he' e1
      cases this
      obtain ⟨rfl, rfl⟩ := hk.toStr_inj hk' e2
      exact ⟨rfl, rfl⟩
    | @nested _ n' dims' es' o' ks' c' p' he' hk' hl' =>
      obtain ⟨e1, e2⟩ := List.cons.inj e
      cases List.inj_on_of_nodup_map hwf.nodup he he' e1
  | @nested es n dims es' o1 ks c p he hk hl ih =>
    cases h' with
    | @prim _ n' dims' p' ks' he' hk' =>
      obtain ⟨e1, e2⟩ := List.cons.inj e
      cases List.inj_on_of_nodup_map hwf.nodup he he' e1
    | @nested _ n' dims' es'' o' ks' c' p' he' hk' hl' =>
      obtain ⟨e1, e2⟩ := List.cons.inj e
      cases List.inj_on_of_nodup_map hwf.nodup he he' e1
      change ((ks ++ c).map Key.toStr) ++ r = ((ks' ++ c').map Key.toStr) ++ r' at e2
      rw [List.map_append, List.map_append, List.append_assoc, List.append_assoc] at e2
      obtain ⟨rfl, e3⟩ := hk.toStr_inj hk' e2
      cases hwf with
      | mk _ _ _ sub =>
        obtain ⟨rfl, rfl⟩ := ih (sub _ _ _ _ he) hl' e3
        exact ⟨rfl, rfl⟩

/-- **C67**: for every struct, `canonicalIndices(extraMode=0)` lists the canonical indices of the elements in the order of the
vector, each as many times as the element has nonzeros. -/
theorem C67_indices (s : Struct) (hwf : WFs s.entries s.order) (c : CS) (hc : CS.ofStruct s = .ok c) :
    ∃ ls : List (CIdx × Sparsity), ls.map (·.1) = s.traverseCanonicalIndex ∧
      (∀ x ∈ ls, ∃ p, IsLeaf s.entries x.1 p ∧ x.2 = p.sp) ∧
      c.canonicalIndices 0 = .ok (ls.flatMap fun x => List.replicate x.2.nz.length x.1) := by
  obtain ⟨c', ls, hc', rfl, hb⟩ := ofStruct_built hwf
  rw [hc] at hc'
  cases hc'
  refine ⟨ls, by rw [traverseCanonicalIndex_eq]; exact hb.keys, hb.leaf, ?_⟩
  have hlen : c.table.length = c.size := by rw [hb.table, hb.size, tableOf_length]
  have : (ls.flatMap fun x => List.replicate x.2.nz.length x.1) = c.table.map (·.1) := by
    rw [hb.table, tableOf, List.map_flatMap]
    apply List.flatMap_congr
    intro x _
    rw [List.map_map]
    refine (List.eq_replicate_iff.2 ⟨by simp, ?_⟩).symm
    intro b hb
    obtain ⟨y, _, rfl⟩ := List.mem_map.1 hb
    rfl
  rw [this, CS.canonicalIndices, except_mapM_ok _ _ (fun k => ((c.table[k]?).map (·.1)).getD [])]
  · congr 1
    apply List.ext_getElem
    · simp [hlen]
    · intro i g1 g2
      have : i < c.table.length := by simpa using g2
      simp [this]
  · intro k hk
    have hk := List.mem_range.1 hk
    rw [CS.getCanonicalIndex, if_neg (by omega), Int.toNat_natCast, List.getElem?_eq_getElem (by omega)]
    rfl

/-- **C67**: with the default `extraMode` every index ends in the number of the nonzero of its element. -/
theorem C67_indices_default (s : Struct) (hwf : WFs s.entries s.order) (c : CS) (hc : CS.ofStruct s = .ok c) :
    ∃ ls : List (CIdx × Sparsity), ls.map (·.1) = s.traverseCanonicalIndex ∧
      (∀ x ∈ ls, ∃ p, IsLeaf s.entries x.1 p ∧ x.2 = p.sp) ∧
      c.canonicalIndices = .ok (ls.flatMap fun x => (List.range x.2.nz.length).map fun k : ℕ => x.1 ++ [.int k]) := by
  obtain ⟨c', ls, hc', rfl, hb⟩ := ofStruct_built hwf
  rw [hc] at hc'
  cases hc'
  refine ⟨ls, by rw [traverseCanonicalIndex_eq]; exact hb.keys, hb.leaf, ?_⟩
  have hlen : c.table.length = c.size := by rw [hb.table, hb.size, tableOf_length]
  have : (ls.flatMap fun x => (List.range x.2.nz.length).map fun k : ℕ => x.1 ++ [.int k]) =
      c.table.map fun y => y.1 ++ [.int y.2.1] := by
    rw [hb.table, tableOf, List.map_flatMap]
    apply List.flatMap_congr
    intro x _
    rw [List.map_map]
    apply List.ext_getElem
    · simp
    · intro i g1 g2
      simp
  rw [this, CS.canonicalIndices, except_mapM_ok _ _ (fun k => ((c.table[k]?).map fun y => y.1 ++ [Key.int y.2.1]).getD [])]
  · congr 1
    apply List.ext_getElem
    · simp [hlen]
    · intro i g1 g2
      have : i < c.table.length := by simpa using g2
      simp [this]
  · intro k hk
    have hk := List.mem_range.1 hk
    rw [CS.getCanonicalIndex, if_neg (by omega), Int.toNat_natCast, List.getElem?_eq_getElem (by omega)]
    rfl

/-- **C67** (what holds): for every struct whose names contain no comma, also the names in nested structs, the labels of the
positions of the vector (with an extra index) are pairwise distinct.
Missing: names with commas, for which the claim is false (`C67_refuted`). -/
theorem C67_labels_partial (s : Struct) (hwf : WFs s.entries s.order) (hn : Names NoComma s.entries) (c : CS)
    (hc : CS.ofStruct s = .ok c) (extraMode : ℤ) (hm : extraMode ≠ 0) :
    ∃ L, c.labels extraMode = .ok L ∧ L.length = c.size ∧ L.Nodup := by
  obtain ⟨c', ls, hc', rfl, hb⟩ := ofStruct_built hwf
  rw [hc] at hc'
  cases hc'
  -- the strings in the label of a position
  have key : ∀ k < c.size, ∃ ci p m j q, IsLeaf c.struct.entries ci p ∧ dictGet c.map ci = some m ∧ m.sp.nz[j]? = some q ∧
      m.sp = p.sp ∧ m.data[j]? = some k ∧ ∃ x : CIdx, (x = [.int (j : ℕ)] ∨ x = [.int (q.2 : ℕ), .int (q.1 : ℕ)]) ∧
      (x.length = if extraMode = 1 then 1 else 2) ∧
      c.getLabel k extraMode = .ok ("[" ++ joinComma ((ci ++ x).map Key.toStr) ++ "]") := by
    intro k hk
    obtain ⟨ci, p, m, j, q, h1, h2, h3, h4, h5, h6, h7⟩ := lookup_spec hb hwf hk
    refine ⟨ci, p, m, j, q, h1, h2, by rw [h3]; exact h5, h3, h6, if extraMode = 1 then [.int (j : ℕ)] else [.int (q.2 : ℕ), .int (q.1 : ℕ)], ?_, ?_, ?_⟩
    · split
      · exact .inl rfl
      · exact .inr rfl
    · split <;> rfl
    · rw [CS.getLabel, CS.getCanonicalIndex, if_neg (by omega), Int.toNat_natCast, h7]
      simp only [if_neg hm]
      split <;> rfl
  haveI : Inhabited IMat := ⟨.scalar 0⟩
  haveI : Inhabited Prim := ⟨⟨.dense 0, false, none, none⟩⟩
  choose! ci p m j q h1 h2 h3 h8 h4 x h5 h6 h7 using key
  refine ⟨(List.range c.size).map fun k => "[" ++ joinComma ((ci k ++ x k).map Key.toStr) ++ "]", ?_, by simp, ?_⟩
  · rw [CS.labels]
    exact except_mapM_ok _ _ _ fun k hk => h7 k (List.mem_range.1 hk)
  · rw [List.nodup_map_iff_inj_on List.nodup_range]
    intro k hk k' hk' e
    replace hk := List.mem_range.1 hk
    replace hk' := List.mem_range.1 hk'
    have hno : ∀ k < c.size, ∀ s ∈ (ci k ++ x k).map Key.toStr, NoComma s := by
      intro k hk s hs
      obtain ⟨t, ht, rfl⟩ := List.mem_map.1 hs
      rcases List.mem_append.1 ht with ht | ht
      · exact (h1 k hk).noComma hn t ht
      · rcases h5 k hk with h | h <;> rw [h] at ht
        · rw [List.mem_singleton.1 ht]
          exact toStr_nat_noComma _
        · simp only [List.mem_cons, List.not_mem_nil, or_false] at ht
          rcases ht with rfl | rfl <;> exact toStr_nat_noComma _
    have hne : ∀ k < c.size, (ci k ++ x k).map Key.toStr ≠ [] := by
      intro k hk h
      have := h6 k hk
      rw [List.map_eq_nil_iff, List.append_eq_nil_iff] at h
      rw [h.2] at this
      split at this <;> cases this
    have e1 : joinComma ((ci k ++ x k).map Key.toStr) = joinComma ((ci k' ++ x k').map Key.toStr) := by
      have := congrArg String.toList e
      simp only [String.toList_append] at this
      exact String.toList_inj.1 (List.append_cancel_left (List.append_cancel_right this))
    have e2 := joinComma_inj (hne k hk) (hne k' hk') (hno k hk) (hno k' hk') e1
    rw [List.map_append, List.map_append] at e2
    obtain ⟨e3, e4⟩ := (h1 k hk).toStr_inj hwf (h1 k' hk') e2
    have hmm : m k = m k' := by
      have := h2 k hk
      rw [e3, h2 k' hk'] at this
      exact (Option.some.inj this).symm
    have hj : j k = j k' := by
      have hlen := (h6 k hk).trans (h6 k' hk').symm
      rcases h5 k hk with h | h <;> rcases h5 k' hk' with h' | h' <;> rw [h, h'] at e4 hlen
      · simp only [List.map_cons, List.map_nil, List.cons.injEq, and_true] at e4
        exact toStr_nat_inj e4
      · cases hlen
      · cases hlen
      · simp only [List.map_cons, List.map_nil, List.cons.injEq, and_true] at e4
        have hq : q k = q k' := Prod.ext (toStr_nat_inj e4.2) (toStr_nat_inj e4.1)
        have g1 := h3 k hk
        have g2 := h3 k' hk'
        rw [← hmm, ← hq] at g2
        have hc : (m k).sp.Canon := by rw [h8 k hk]; exact (h1 k hk).canon hwf
        exact (List.getElem?_inj (List.getElem?_eq_some_iff.1 g1).1 hc.nodup).1 (g1.trans g2.symm)
    have g1 := h4 k hk
    have g2 := h4 k' hk'
    rw [← hmm, ← hj, g1] at g2
    exact Option.some.inj g2

/-- An entry with one repetition and an entry whose name has a comma. -/
def commaStruct : Struct := ⟨[.prim "a" [1] ⟨.dense 1 1, false, none, none⟩, .prim "a,0" [] ⟨.dense 1 1, false, none, none⟩],
  [.one "a", .one "a,0"]⟩

theorem commaStruct_wf : WFs commaStruct.entries commaStruct.order := by
  refine .mk (by simp [commaStruct, Entry.name]) (by simp [commaStruct, OrderItem.names, Entry.name]) ?_ ?_
  · intro n d q hq
    simp only [commaStruct, List.mem_cons, List.not_mem_nil, or_false, Entry.prim.injEq] at hq
    rcases hq with ⟨_, _, rfl⟩ | ⟨_, _, rfl⟩ <;> exact Sparsity.dense_canon _ _
  · intro n d es o hq
    simp [commaStruct] at hq

/-- **C67 fails** for names with commas: the two positions of a struct with the entries `a` (one repetition) and `a,0` have
the same label. -/
theorem C67_refuted : ∃ s c, WFs s.entries s.order ∧ CS.ofStruct s = .ok c ∧ c.size = 2 ∧
    c.labels = .ok ["[a,0,0]", "[a,0,0]"] := by
  obtain ⟨c, ls, h1, h2, hb⟩ := ofStruct_built commaStruct_wf
  have hwf' : WFs c.struct.entries c.struct.order := by rw [h2]; exact commaStruct_wf
  have hs : c.size = 2 := by rw [hb.size_eq hwf', h2]; rfl
  have hls : ls = [([.str "a", .int 0], .dense 1 1), ([.str "a,0"], .dense 1 1)] := by
    apply leaves_ext hwf' ?_ hb.leaf
    · intro x hx
      simp only [List.mem_cons, List.not_mem_nil, or_false] at hx
      rw [h2]
      rcases hx with rfl | rfl
      · exact ⟨_, .prim (ks := [.int 0]) List.mem_cons_self (.cons ⟨0, by decide, rfl⟩ .nil), rfl⟩
      · exact ⟨_, .prim (ks := []) (List.mem_cons_of_mem _ List.mem_cons_self) .nil, rfl⟩
    · rw [hb.keys, h2]
      decide
  refine ⟨_, c, commaStruct_wf, h1, hs, ?_⟩
  have ht : c.table = [([.str "a", .int 0], 0, (0, 0)), ([.str "a,0"], 0, (0, 0))] := by rw [hb.table, hls]; rfl
  have g : ∀ k : ℕ, k < 2 → c.getLabel k = .ok "[a,0,0]" := by
    intro k hk
    rw [CS.getLabel, CS.getCanonicalIndex, if_neg (by omega), Int.toNat_natCast, ht]
    match k with
    | 0 => rfl
    | 1 => rfl
  rw [CS.labels, hs, except_mapM_ok _ _ (fun _ => "[a,0,0]") fun k hk => g k (List.mem_range.1 hk)]
  rfl

example : ∃ c, CS.ofStruct exStruct = .ok c ∧ c.size = 17 ∧ ∃ L, c.labels = .ok L ∧ L.length = 17 ∧ L.Nodup := by
  obtain ⟨c, ls, h1, h2, hb⟩ := ofStruct_built exStruct_wf
  have hs : c.size = 17 := by rw [hb.size_eq (by rw [h2]; exact exStruct_wf), h2]; rfl
  refine ⟨c, h1, hs, ?_⟩
  rw [← hs]
  refine C67_labels_partial _ exStruct_wf (.mk ?_ ?_) c h1 1 (by decide)
  · intro e he
    simp only [exStruct, List.mem_cons, List.not_mem_nil, or_false] at he
    rcases he with rfl | rfl | rfl | rfl <;> simp [NoComma, Entry.name]
  · intro n d es o h
    simp only [exStruct, List.mem_cons, List.not_mem_nil, or_false, reduceCtorEq, Entry.nested.injEq, false_or] at h
    obtain ⟨_, _, rfl, rfl⟩ := h
    refine .mk ?_ ?_
    · intro e he
      simp only [exNested, List.mem_cons, List.not_mem_nil, or_false] at he
      rcases he with rfl | rfl <;> simp [NoComma, Entry.name]
    · intro n d es o h
      simp [exNested] at h

example : ∃ c, CS.ofStruct exStruct = .ok c ∧ ∃ ls : List (CIdx × Sparsity), ls.length = 10 ∧
    c.canonicalIndices 0 = .ok (ls.flatMap fun x => List.replicate x.2.nz.length x.1) := by
  obtain ⟨c, ls, h1, h2, hb⟩ := ofStruct_built exStruct_wf
  obtain ⟨ls, g1, _, g3⟩ := C67_indices _ exStruct_wf c h1
  refine ⟨c, h1, ls, ?_, g3⟩
  have := congrArg List.length g1
  rw [List.length_map] at this
  rw [this]
  decide

/-- The default indices of `exStruct`: ten elements, each with its own number of indices. -/
example : ∃ c, CS.ofStruct exStruct = .ok c ∧ ∃ ls : List (CIdx × Sparsity), ls.length = 10 ∧
    c.canonicalIndices = .ok (ls.flatMap fun x => (List.range x.2.nz.length).map fun k : ℕ => x.1 ++ [.int k]) := by
  obtain ⟨c, ls, h1, h2, hb⟩ := ofStruct_built exStruct_wf
  obtain ⟨ls, g1, _, g3⟩ := C67_indices_default _ exStruct_wf c h1
  refine ⟨c, h1, ls, ?_, g3⟩
  have := congrArg List.length g1
  rw [List.length_map] at this
  rw [this]
  decide

end CE.St
