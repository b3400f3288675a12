import Verif.Struct.PropsLayout

/-! # Layout of structs: C41 (groups), C42 (lookup), examples -/

namespace CE.St

theorem pair_sublist {α : Type} {x y : α} {l1 l2 : List α} (hx : x ∈ l1) (hy : y ∈ l2) : [x, y].Sublist (l1 ++ l2) :=
  (List.singleton_sublist.2 hx).append (List.singleton_sublist.2 hy)

theorem pair_split {α : Type} {x y : α} {l : List α} (h : [x, y].Sublist l) : ∃ A B C, l = A ++ x :: B ++ y :: C := by
  obtain ⟨l1, l2, rfl, h1, h2⟩ := List.cons_sublist_iff.1 h
  obtain ⟨a1, a2, rfl⟩ := List.append_of_mem h1
  obtain ⟨b1, b2, rfl⟩ := List.append_of_mem (List.singleton_sublist.1 h2)
  exact ⟨a1, a2 ++ b1, b2, by simp⟩

/-- The number of the first repetition of an element: its first repeat index, 0 without repeats. -/
def firstRep : CIdx → ℤ
  | .int i :: _ => i
  | _ => 0

/-- The row of a group in which an element is laid out. -/
theorem canNest_row {e : Entry} {c : CIdx} (h : Key.str e.name :: c ∈ e.can) :
    ∃ i : ℕ, firstRep c = i ∧ ∃ row, e.canNest[i]? = some row ∧ Key.str e.name :: c ∈ row := by
  obtain ⟨ks, c', hks, hc', e1⟩ := mem_can.1 h
  have e2 : c = ks ++ c' := (List.cons.inj e1).2
  subst e2
  rw [Entry.canNest, entryCanNest_eq]
  rcases hd : e.dims with _ | ⟨d, ds⟩
  · rw [hd] at hks
    cases hks
    refine ⟨0, ?_, _, rfl, ?_⟩
    · cases c' with
      | nil => rfl
      | cons k c' =>
        cases e with
        | prim => simp [Entry.kids] at hc'
        | nested n d es o =>
          rw [kids_nested, leafList_eq] at hc'
          obtain ⟨oi, _, hm⟩ := List.mem_flatMap.1 hc'
          rw [(itemCan_perm es oi).mem_iff, List.mem_flatMap] at hm
          obtain ⟨m, _, hm⟩ := hm
          cases hde : dictEntry es m with
          | none => rw [hde] at hm; simp at hm
          | some e' =>
            rw [hde] at hm
            obtain ⟨_, _, _, _, e3⟩ := mem_can.1 hm
            rw [(List.cons.inj e3).1]
            rfl
    · simpa using hc'
  · rw [hd] at hks
    cases hks with
    | @cons _ _ ks' _ a b =>
      obtain ⟨i, hi, rfl⟩ := a
      refine ⟨i, rfl, ((listindices ds).map fun ks => Key.int i :: ks).flatMap fun ks => e.kids.map fun c =>
        .str e.name :: (ks ++ c), ?_, ?_⟩
      · rw [listindicesNest_cons]
        simp [hi]
      · rw [List.mem_flatMap]
        exact ⟨_, List.mem_map.2 ⟨ks', mem_listindices.2 b, rfl⟩, List.mem_map.2 ⟨c', hc', rfl⟩⟩

/-- Round robin puts row `i` of list `a` before row `j` of list `b` if `i < j`, or `i = j` and `a` comes first. -/
theorem intersperse_order {α : Type} {its : List (List α)} {ia ib i j : ℕ} {la lb : List α} {x y : α}
    (ha : its[ia]? = some la) (hb : its[ib]? = some lb) (hx : la[i]? = some x) (hy : lb[j]? = some y)
    (h : i < j ∨ i = j ∧ ia < ib) : [x, y].Sublist (intersperse its) := by
  rw [intersperse_rr, rr_eq]
  have hla := List.mem_of_getElem? ha
  have hlb := List.mem_of_getElem? hb
  have hi : i < its.flatten.length + 1 := by
    have h1 := length_le_flatten hla
    have h2 : i < la.length := (List.getElem?_eq_some_iff.1 hx).1
    omega
  have hj : j < its.flatten.length + 1 := by
    have h1 := length_le_flatten hlb
    have h2 : j < lb.length := (List.getElem?_eq_some_iff.1 hy).1
    omega
  rcases h with h | ⟨rfl, h⟩
  · have hr : List.range (its.flatten.length + 1) =
        List.range (i + 1) ++ (List.range (its.flatten.length - i)).map (i + 1 + ·) := by
      rw [← List.range_add]; congr 1; omega
    rw [hr, List.flatMap_append]
    apply pair_sublist
    · rw [List.mem_flatMap]
      exact ⟨i, by simp, List.mem_filterMap.2 ⟨la, hla, hx⟩⟩
    · rw [List.mem_flatMap]
      exact ⟨j, List.mem_map.2 ⟨j - i - 1, by rw [List.mem_range]; omega, by omega⟩, List.mem_filterMap.2 ⟨lb, hlb, hy⟩⟩
  · refine List.Sublist.trans ?_ (infix_flatMap (fun k => its.filterMap fun l => l[k]?) (List.mem_range.2 hi)).sublist
    rw [← List.take_append_drop ib its, List.filterMap_append]
    apply pair_sublist
    · exact List.mem_filterMap.2 ⟨la, List.mem_of_getElem? (i := ia) (by rw [List.getElem?_take_of_lt h]; exact ha), hx⟩
    · exact List.mem_filterMap.2 ⟨lb, List.mem_of_getElem? (i := 0) (by rw [List.getElem?_drop]; exact hb), hy⟩

/-- **C41**: `intersperse` is round robin: turn `k` yields element `k` of each list that has one, in order of the lists; no
element is lost or duplicated. -/
theorem C41_intersperse {α : Type} (its : List (List α)) (L : ℕ) (hL : ∀ l ∈ its, l.length ≤ L) :
    intersperse its = (List.range L).flatMap (fun k => its.filterMap fun l => l[k]?) ∧
      (intersperse its).Perm its.flatten := by
  refine ⟨?_, intersperse_perm its⟩
  rw [intersperse_rr, rr_eq]
  have key : ∀ L', (∀ l ∈ its, l.length ≤ L') → ∀ M, (List.range (L' + M)).flatMap (fun k => its.filterMap fun l => l[k]?) =
      (List.range L').flatMap (fun k => its.filterMap fun l => l[k]?) := by
    intro L' h' M
    rw [List.range_add, List.flatMap_append]
    refine (congrArg _ (List.flatMap_eq_nil_iff.2 ?_)).trans (List.append_nil _)
    intro k hk
    obtain ⟨j, _, rfl⟩ := List.mem_map.1 hk
    rw [List.filterMap_eq_nil_iff]
    intro l hl
    rw [List.getElem?_eq_none]
    have := h' l hl
    omega
  rcases Nat.le_total L (its.flatten.length + 1) with h | h
  · obtain ⟨M, e⟩ := Nat.exists_eq_add_of_le h
    rw [e]; exact key L hL M
  · obtain ⟨M, e⟩ := Nat.exists_eq_add_of_le h
    rw [e]
    exact (key _ (fun l hl => (length_le_flatten hl).trans (Nat.le_succ _)) M).symm

/-- **C41** (layout of a group): the entries of a group are laid out together, after the entries before the group; an element
of repetition `i` lies before one of repetition `j` if `i < j`, and within a repetition the entries follow the order in the
group.  (By C38 no element is lost or duplicated.) -/
theorem C41_group {V : Type} (es : List Entry) (pre post : List OrderItem) (ns : List String)
    (hwf : WFs es (pre ++ .tup ns :: post)) :
    ∃ c, CS.ofStruct ⟨es, pre ++ .tup ns :: post⟩ = .ok c ∧
      (∀ a ca p m, a ∈ ns → IsLeaf es (.str a :: ca) p → c.i (V := V) ((.str a :: ca).map .ofKey) = .ok (.leaf m) →
        ∀ x ∈ m.data, ((pre.flatMap OrderItem.names).map fun m => ((dictEntry es m).map Entry.count).getD 0).sum ≤ x ∧
          x < ((pre.flatMap OrderItem.names).map fun m => ((dictEntry es m).map Entry.count).getD 0).sum +
            (ns.map fun m => ((dictEntry es m).map Entry.count).getD 0).sum) ∧
      (∀ (ia ib : ℕ) a b ca cb pa pb ma mb, ns[ia]? = some a → ns[ib]? = some b →
        IsLeaf es (.str a :: ca) pa → IsLeaf es (.str b :: cb) pb →
        c.i (V := V) ((.str a :: ca).map .ofKey) = .ok (.leaf ma) → c.i (V := V) ((.str b :: cb).map .ofKey) = .ok (.leaf mb) →
        (firstRep ca < firstRep cb ∨ firstRep ca = firstRep cb ∧ ia < ib) →
        ∀ x ∈ ma.data, ∀ y ∈ mb.data, x < y) := by
  obtain ⟨c, ls, h1, h2, hb⟩ := ofStruct_built (s := ⟨es, pre ++ .tup ns :: post⟩) hwf
  have hwf' : WFs c.struct.entries c.struct.order := by rw [h2]; exact hwf
  have hmemcan : ∀ {a ca p}, IsLeaf es (.str a :: ca) p → ∃ e ∈ es, e.name = a ∧ Key.str a :: ca ∈ e.can := by
    intro a ca p h
    have := (mem_leafList hwf).2 ⟨p, h⟩
    rw [(leafList_perm hwf).mem_iff, List.mem_flatMap] at this
    obtain ⟨e, he, hc⟩ := this
    obtain ⟨_, _, _, _, e1⟩ := mem_can.1 hc
    exact ⟨e, he, (Key.str.inj (List.cons.inj e1).1).symm, hc⟩
  have hll : leafList es (pre ++ .tup ns :: post) =
      pre.flatMap (itemCan es) ++ itemCan es (.tup ns) ++ post.flatMap (itemCan es) := by
    rw [leafList_eq]; simp
  refine ⟨c, h1, ?_, ?_⟩
  · intro a ca p m ha hl hi x hx
    have hl' : IsLeaf c.struct.entries (.str a :: ca) p := by rw [h2]; exact hl
    obtain ⟨e, he, hn, hc⟩ := hmemcan hl
    have hmem : Key.str a :: ca ∈ itemCan es (.tup ns) := by
      rw [(itemCan_perm es _).mem_iff, List.mem_flatMap]
      refine ⟨a, ha, ?_⟩
      rw [← hn, dictEntry_of_mem hwf.nodup he, hn]
      exact hc
    obtain ⟨A, B, hs⟩ := List.append_of_mem hmem
    have hp := hb.leaf_pos hwf' hl' (A := pre.flatMap (itemCan es) ++ A) (B := B ++ post.flatMap (itemCan es)) (by
      rw [h2]; simp only; rw [hll, hs]; simp)
    rw [c.i_leaf hwf' hl', hp] at hi
    cases hi
    have hx' := mem_block.1 hx
    rw [h2] at hx'
    simp only at hx'
    rw [wsum_append, wsum_items hwf] at hx'
    have hw := wsum_item hwf (.tup ns)
    rw [hs, wsum_append] at hw
    have hw2 : wsum es ((Key.str a :: ca) :: B) = p.sp.nnz + wsum es B := by
      rw [show (Key.str a :: ca) :: B = [Key.str a :: ca] ++ B from rfl, wsum_append]
      simp [wsum, hl.wt hwf]
    rw [hw2] at hw
    have hc1 : ∀ l : List String, (l.map fun m => ((dictEntry es m).map Entry.count).getD 0).sum =
        (l.map (countName es)).sum := fun l => rfl
    rw [hc1, hc1]
    simp only [OrderItem.names] at hw
    omega
  · intro ia ib a b ca cb pa pb ma mb ha hb' hla hlb hia hib hlt x hx y hy
    obtain ⟨ea, hea, hna, hca⟩ := hmemcan hla
    obtain ⟨eb, heb, hnb, hcb⟩ := hmemcan hlb
    subst hna hnb
    obtain ⟨i, hfi, ra, hra, hxa⟩ := canNest_row hca
    obtain ⟨j, hfj, rb, hrb, hxb⟩ := canNest_row hcb
    rw [hfi, hfj] at hlt
    have hsub : [ra, rb].Sublist (intersperse (ns.map fun n => ((dictEntry es n).map Entry.canNest).getD [])) := by
      apply intersperse_order (ia := ia) (ib := ib) (i := i) (j := j) (la := ea.canNest) (lb := eb.canNest) ?_ ?_ hra hrb
      · rcases hlt with h | ⟨h, h'⟩
        · left; exact_mod_cast h
        · right; exact ⟨by exact_mod_cast h, h'⟩
      · rw [List.getElem?_map, ha]; simp [dictEntry_of_mem hwf.nodup hea]
      · rw [List.getElem?_map, hb']; simp [dictEntry_of_mem hwf.nodup heb]
    have hsub2 : [Key.str ea.name :: ca, Key.str eb.name :: cb].Sublist (leafList es (pre ++ .tup ns :: post)) := by
      have h3 : [Key.str ea.name :: ca, Key.str eb.name :: cb].Sublist (ra ++ rb) := pair_sublist hxa hxb
      have h4 : (ra ++ rb).Sublist (itemCan es (.tup ns)) := by
        have := hsub.flatten
        simpa [itemCan] using this
      rw [hll]
      exact (h3.trans h4).trans ((List.sublist_append_right _ _).trans (List.sublist_append_left _ _))
    obtain ⟨A, B, C, hs⟩ := pair_split hsub2
    have hla' : IsLeaf c.struct.entries (.str ea.name :: ca) pa := by rw [h2]; exact hla
    have hlb' : IsLeaf c.struct.entries (.str eb.name :: cb) pb := by rw [h2]; exact hlb
    rw [c.i_leaf hwf' hla', hb.leaf_pos hwf' hla' (A := A) (B := B ++ (.str eb.name :: cb) :: C) (by
      rw [h2]; simp only; rw [hs]; simp)] at hia
    rw [c.i_leaf hwf' hlb', hb.leaf_pos hwf' hlb' (A := A ++ (.str ea.name :: ca) :: B) (B := C) (by
      rw [h2]; simp only; rw [hs])] at hib
    cases hia
    cases hib
    have hx' := mem_block.1 hx
    have hy' := mem_block.1 hy
    rw [wsum_append, show (Key.str ea.name :: ca) :: B = [Key.str ea.name :: ca] ++ B from rfl, wsum_append] at hy'
    have : wsum c.struct.entries [Key.str ea.name :: ca] = pa.sp.nnz := by simp [wsum, hla'.wt hwf']
    omega

/-! ## C42 -/

theorem CS.f_leaf (c : CS) (hwf : WFs c.struct.entries c.struct.order) {ci p}
    (h : IsLeaf c.struct.entries ci p) (extra : List (PIdx Empty)) {m : IMat} (hm : dictGet c.map ci = some m) :
    c.f (ci.map .ofKey ++ extra) =
      match performExtraIndex (fun f : Empty => f.elim) m (some p) false extra with
      | .ok r => if r.sp.isDense then .ok (r.data.map fun k : ℕ => (k : ℤ)) else .error .generic
      | .error _ => .error .generic := by
  have := goStruct_leaf (flatDisp (V := Empty) c.map) hwf h c.struct.keys extra false [] .none
  rw [List.nil_append] at this
  rw [CS.f, Struct.traverse, this, callLeaf]
  have hx : (if extra.isEmpty then none else some extra).getD [] = extra := by cases extra <;> rfl
  simp only [flatDisp, flatCall, ex, M.lift, M.bind, M.pure, hm, hx]
  cases performExtraIndex (fun f : Empty => f.elim) m (some p) false extra with
  | error e => rfl
  | ok r =>
    simp only [Except.bind]
    by_cases hd : r.sp.isDense = true
    · simp only [if_pos hd]; rfl
    · simp only [if_neg hd]

theorem zipIdx_get {α : Type} (l : List α) (j : ℕ) : l.zipIdx[j]? = (l[j]?).map fun a => (a, j) := by
  rw [List.getElem?_zipIdx]; simp

theorem table_get {pre : List (CIdx × Sparsity)} {x : CIdx × Sparsity} {post : List (CIdx × Sparsity)} {j : ℕ} {q : ℕ × ℕ}
    (hq : x.2.nz[j]? = some q) : (tableOf (pre ++ x :: post))[sizeOf' pre + j]? = some (x.1, j, (q.2, q.1)) := by
  have hj : j < x.2.nz.length := (List.getElem?_eq_some_iff.1 hq).1
  rw [tableOf, List.flatMap_append, ← tableOf, List.getElem?_append_right (by rw [tableOf_length]; omega), tableOf_length,
    Nat.add_sub_cancel_left, List.flatMap_cons, List.getElem?_append_left (by simpa using hj), List.getElem?_map,
    zipIdx_get, hq]
  rfl

/-- Splitting a position into element and number of the nonzero. -/
theorem lookup_spec {c : CS} {ls} (hb : Built c ls) (hwf : WFs c.struct.entries c.struct.order) {k : ℕ} (hk : k < c.size) :
    ∃ ci p m j q, IsLeaf c.struct.entries ci p ∧ dictGet c.map ci = some m ∧ m.sp = p.sp ∧ m.data.length = p.sp.nz.length ∧
      p.sp.nz[j]? = some q ∧ m.data[j]? = some k ∧ c.table[k]? = some (ci, j, (q.2, q.1)) := by
  rw [hb.size] at hk
  obtain ⟨pre, x, post, j, e, hj, hkj⟩ := exists_elem hk
  obtain ⟨p, hp, hsp⟩ := hb.leaf x (by rw [e]; simp)
  have hk2 := hb.keys
  rw [e, List.map_append, List.map_cons] at hk2
  have hpos := hb.leaf_pos hwf hp hk2.symm
  have hpre : sizeOf' pre = wsum c.struct.entries (pre.map (·.1)) := sizeOf'_eq_wsum hwf (by
    intro y hy
    exact hb.leaf y (by rw [e]; simp [hy]))
  obtain ⟨q, hq⟩ : ∃ q, x.2.nz[j]? = some q := ⟨_, List.getElem?_eq_getElem hj⟩
  refine ⟨x.1, p, _, j, q, hp, hpos, rfl, by rw [block_length]; rfl, by rw [← hsp]; exact hq, ?_, ?_⟩
  · rw [block_get, ← hsp]
    exact ⟨hj, by rw [hkj, hpre]⟩
  · rw [hb.table, e, hkj]
    exact table_get hq

theorem normIdx_one (n k : ℕ) (h : k < n) : normIdx n [(k : ℤ)] = .ok [k] := by
  have h1 : -(n : ℤ) ≤ k ∧ (k : ℤ) < n := by omega
  rw [normIdx, List.mapM_cons, List.mapM_nil, if_pos h1, canonical_nat]
  rfl

theorem subMat_one (i : IMat) (f : ℕ × ℕ → ℕ × ℕ) {v : ℕ} (h : i.nzAt (f (0, 0)) = some v) :
    subMat i 1 1 f = ⟨.dense 1 1, [v]⟩ := by
  have : Sparsity.positions 1 1 = [(0, 0)] := rfl
  simp [subMat, this, h, Sparsity.dense]

/-- Indexing an index matrix with a single position. -/
theorem getLin_one {F : Type} {m : IMat} {k v : ℕ} (hk : k < m.sp.rows * m.sp.cols)
    (h : m.nzAt (k % m.sp.rows, k / m.sp.rows) = some v) :
    getLin m (PIdx.int k : PIdx F) = .ok ⟨.dense 1 1, [v]⟩ := by
  show getSel m (PIdx.int k : PIdx F) = _
  rw [getSel]
  simp only [selIdx, normIdx_one _ _ hk]
  show (if _ then _ else _) = _
  split
  · exact congrArg Except.ok (subMat_one m _ h)
  · exact congrArg Except.ok (subMat_one m _ h)

theorem performExtraIndex_int {F : Type} (g : F → Tree IMat → Except PyErr IMat) (i : IMat) (p : Option Prim) (b : Bool)
    (k : ℤ) : performExtraIndex g i p b [.int k] = getLin i (PIdx.int k : PIdx F) := rfl

/-- **C42** (the part that holds): `getCanonicalIndex` raises unless `0 ≤ i < size`; otherwise, for `extraMode` 0 the
element with the returned canonical index contains position `i`, and for `extraMode` 1, if that element is dense,
`s.f[s.getCanonicalIndex(i)]` is `[i]`.
Missing: sparse elements with `extraMode` 1 and `extraMode` 2, for which the claim is false (`C42_refuted`). -/
theorem C42_partial {V : Type} (s : Struct) (hwf : WFs s.entries s.order) :
    ∃ c, CS.ofStruct s = .ok c ∧
      (∀ (i mode : ℤ), (i < 0 ∨ i ≥ c.size) → c.getCanonicalIndex i mode = .error .generic) ∧
      ∀ k < c.size, ∃ ci p m, IsLeaf s.entries ci p ∧ c.getCanonicalIndex k 0 = .ok ci ∧
        c.i (V := V) (ci.map .ofKey) = .ok (.leaf m) ∧ k ∈ m.data ∧
        ((p.sp = .dense p.sp.rows p.sp.cols) →
          ∃ ci1, c.getCanonicalIndex k = .ok ci1 ∧ c.f (ci1.map .ofKey) = .ok [(k : ℤ)]) := by
  obtain ⟨c, ls, h1, rfl, hb⟩ := ofStruct_built hwf
  refine ⟨c, h1, ?_, ?_⟩
  · intro i mode h
    rw [CS.getCanonicalIndex, if_pos h]
  · intro k hk
    obtain ⟨ci, p, m, j, q, hl, hm, hsp, hlen, hq, hd, ht⟩ := lookup_spec hb hwf hk
    have hlt : ¬ ((k : ℤ) < 0 ∨ (k : ℤ) ≥ c.size) := by omega
    refine ⟨ci, p, m, hl, ?_, ?_, List.mem_of_getElem? hd, ?_⟩
    · rw [CS.getCanonicalIndex, if_neg hlt, Int.toNat_natCast, ht]
      rfl
    · rw [c.i_leaf hwf hl, hm]
    · intro hdense
      refine ⟨ci ++ [.int j], ?_, ?_⟩
      · rw [CS.getCanonicalIndex, if_neg hlt, Int.toNat_natCast, ht]
        rfl
      · rw [List.map_append, c.f_leaf hwf hl _ hm]
        have hnz : p.sp.nz = Sparsity.positions p.sp.rows p.sp.cols := congrArg Sparsity.nz hdense
        rw [hnz, Sparsity.positions_eq, List.getElem?_map] at hq
        have hj : j < p.sp.rows * p.sp.cols := by
          by_contra hc
          rw [List.getElem?_eq_none (by simpa using hc)] at hq
          cases hq
        rw [List.getElem?_range hj] at hq
        have hq' : (j % p.sp.rows, j / p.sp.rows) = q := by simpa using hq
        have hcan : m.sp.Canon := by rw [hsp]; exact hl.canon hwf
        have hat : m.nzAt (j % m.sp.rows, j / m.sp.rows) = some k := by
          rw [SMat.nzAt_eq_some hcan]
          refine ⟨j, ?_, hd⟩
          rw [hsp, hnz, Sparsity.positions_eq, List.getElem?_map, List.getElem?_range hj]
          rfl
        have := getLin_one (F := Empty) (by rw [hsp]; exact hj) hat
        rw [show ([Key.int j].map PIdx.ofKey : List (PIdx Empty)) = [.int j] from rfl, performExtraIndex_int, this]
        rfl

/-! ## Instances -/

/-- The entries of a nested struct. -/
def exNested : List Entry := [.prim "u" [] ⟨.dense 1 1, false, none, none⟩, .prim "P" [] ⟨.upper 2, false, none, none⟩]

/-- A struct with a matrix, a repeated nested struct (with an upper triangular matrix) and a group. -/
def exStruct : Struct :=
  ⟨[.prim "x" [] ⟨.dense 2 1, false, none, none⟩,
    .nested "n" [2] exNested [.one "u", .one "P"],
    .prim "a" [3] ⟨.dense 1 1, false, none, none⟩,
    .prim "b" [2] ⟨.dense 2 1, false, none, none⟩],
   [.one "x", .one "n", .tup ["a", "b"]]⟩

theorem exStruct_wf : WFs exStruct.entries exStruct.order := by
  refine .mk (by decide) (by decide) ?_ ?_
  · intro n d p h
    simp only [exStruct, List.mem_cons, List.not_mem_nil, or_false, reduceCtorEq, Entry.prim.injEq, false_or] at h
    rcases h with ⟨_, _, rfl⟩ | ⟨_, _, rfl⟩ | ⟨_, _, rfl⟩ <;> exact Sparsity.dense_canon _ _
  · intro n d es o h
    simp only [exStruct, List.mem_cons, List.not_mem_nil, or_false, reduceCtorEq, Entry.nested.injEq, false_or] at h
    obtain ⟨_, _, rfl, rfl⟩ := h
    refine .mk (by decide) (by decide) ?_ ?_
    · intro n d p h
      simp only [exNested, List.mem_cons, List.not_mem_nil, or_false, Entry.prim.injEq] at h
      rcases h with ⟨_, _, rfl⟩ | ⟨_, _, rfl⟩
      · exact Sparsity.dense_canon _ _
      · exact Sparsity.ofPred_canon _ _ _
    · intro n d es o h
      simp [exNested] at h

/-- Its size: 2 + 2 * (1 + 3) + 3 + 2 * 2. -/
example : ∃ c, CS.ofStruct exStruct = .ok c ∧ c.size = 17 := by
  obtain ⟨c, h, hs, _⟩ := C39_size exStruct exStruct_wf
  exact ⟨c, h, by rw [hs]; rfl⟩

example : ∃ c, CS.ofStruct exStruct = .ok c ∧ c.i (V := ℚ) [.str "n", .int 1] = .ok (.leaf (.col [6, 7, 8, 9])) := by
  obtain ⟨c, c', h, h', hi⟩ := C40_nested_position (V := ℚ) exStruct.entries [.one "x"] [.tup ["a", "b"]] "n" [2] exNested [.one "u", .one "P"]
    exStruct_wf (by simp [exStruct]) ⟨_, _, .prim List.mem_cons_self .nil⟩ [1]
    (.cons (by decide) .nil)
  refine ⟨c, h, ?_⟩
  obtain ⟨c'', h'', hs, _⟩ := C39_size ⟨exNested, [.one "u", .one "P"]⟩
    (exStruct_wf.sub "n" [2] _ _ (by simp [exStruct]))
  rw [h'] at h''
  cases h''
  rw [hs] at hi
  exact hi

/-- Round robin of a group: a0 b0 a1 b1 a2. -/
example : intersperse [["a0", "a1", "a2"], ["b0", "b1"]] = ["a0", "b0", "a1", "b1", "a2"] := by decide

example : exStruct.traverseCanonicalIndex =
    [[.str "x"], [.str "n", .int 0, .str "u"], [.str "n", .int 0, .str "P"], [.str "n", .int 1, .str "u"],
      [.str "n", .int 1, .str "P"], [.str "a", .int 0], [.str "b", .int 0], [.str "a", .int 1], [.str "b", .int 1],
      [.str "a", .int 2]] := by decide

/-- A struct with a single primitive entry `P`. -/
def oneStruct (p : Prim) : Struct := ⟨[.prim "P" [] p], [.one "P"]⟩

theorem oneStruct_wf {p : Prim} (h : p.sp.Canon) : WFs (oneStruct p).entries (oneStruct p).order := by
  refine .mk (by simp [oneStruct]) (by simp [oneStruct, OrderItem.names, Entry.name]) ?_ ?_
  · intro n d q hq
    simp only [oneStruct, List.mem_cons, List.not_mem_nil, or_false, Entry.prim.injEq] at hq
    obtain ⟨_, _, rfl⟩ := hq
    exact h
  · intro n d es o hq
    simp [oneStruct] at hq

theorem oneStruct_leaf (p : Prim) : IsLeaf (oneStruct p).entries [.str "P"] p :=
  .prim (ks := []) List.mem_cons_self .nil

theorem oneStruct_built {p : Prim} (h : p.sp.Canon) : ∃ c, CS.ofStruct (oneStruct p) = .ok c ∧ c.struct = oneStruct p ∧
    Built c [([.str "P"], p.sp)] := by
  obtain ⟨c, ls, h1, h2, hb⟩ := ofStruct_built (oneStruct_wf h)
  have hwf' : WFs c.struct.entries c.struct.order := by rw [h2]; exact oneStruct_wf h
  have : ls = [([.str "P"], p.sp)] := by
    apply leaves_ext hwf' ?_ hb.leaf
    · intro x hx
      have : x = ([.str "P"], p.sp) := by simpa using hx
      subst this
      exact ⟨p, by rw [h2]; exact oneStruct_leaf p, rfl⟩
    · rw [hb.keys, h2]
      rfl
  subst this
  exact ⟨c, h1, h2, hb⟩

/-- **C42 fails**: for a sparse (upper triangular) matrix the extra index of `extraMode` 1 is the number of the nonzero but
is used as the number of the element: looking up position 1 gives an index that raises. -/
theorem C42_refuted_sparse :
    ∃ s c ci, WFs s.entries s.order ∧ CS.ofStruct s = .ok c ∧ c.size = 3 ∧ c.getCanonicalIndex 1 = .ok ci ∧
      c.f (ci.map .ofKey) = .error .generic := by
  have hc : (Sparsity.upper 2).Canon := Sparsity.ofPred_canon _ _ _
  obtain ⟨c, h1, h2, hb⟩ := oneStruct_built (p := ⟨.upper 2, false, none, none⟩) hc
  have hwf := oneStruct_wf (p := ⟨.upper 2, false, none, none⟩) hc
  have hwf' : WFs c.struct.entries c.struct.order := by rw [h2]; exact hwf
  have hl' : IsLeaf c.struct.entries [.str "P"] ⟨.upper 2, false, none, none⟩ := by rw [h2]; exact oneStruct_leaf _
  have hm := hb.leaf_pos hwf' hl' (A := []) (B := []) (by rw [h2]; rfl)
  rw [show wsum c.struct.entries [] = 0 from rfl] at hm
  refine ⟨_, c, [.str "P", .int 1], hwf, h1, by rw [hb.size]; rfl, ?_, ?_⟩
  · rw [CS.getCanonicalIndex, hb.size, hb.table]
    rfl
  · refine (c.f_leaf hwf' hl' [.int 1] hm).trans ?_
    rfl

/-- **C42 fails**: with `extraMode` 2 row and column are exchanged: for a dense 2x2 matrix, looking up position 1 gives an
index that reads position 2. -/
theorem C42_refuted :
    ∃ s c ci, WFs s.entries s.order ∧ CS.ofStruct s = .ok c ∧ c.size = 4 ∧ c.getCanonicalIndex 1 2 = .ok ci ∧
      c.f (ci.map .ofKey) = .ok [2] := by
  have hc : (Sparsity.dense 2 2).Canon := Sparsity.dense_canon _ _
  obtain ⟨c, h1, h2, hb⟩ := oneStruct_built (p := ⟨.dense 2 2, false, none, none⟩) hc
  have hwf := oneStruct_wf (p := ⟨.dense 2 2, false, none, none⟩) hc
  have hwf' : WFs c.struct.entries c.struct.order := by rw [h2]; exact hwf
  have hl' : IsLeaf c.struct.entries [.str "P"] ⟨.dense 2 2, false, none, none⟩ := by rw [h2]; exact oneStruct_leaf _
  have hm := hb.leaf_pos hwf' hl' (A := []) (B := []) (by rw [h2]; rfl)
  refine ⟨_, c, [.str "P", .int 0, .int 1], hwf, h1, by rw [hb.size]; rfl, ?_, ?_⟩
  · rw [CS.getCanonicalIndex, hb.size, hb.table]
    rfl
  · exact (c.f_leaf hwf' hl' [.int 0, .int 1] hm).trans rfl

/-- With `extraMode` 1 the same lookup is right. -/
example : ∃ c ci, CS.ofStruct (oneStruct ⟨.dense 2 2, false, none, none⟩) = .ok c ∧ c.getCanonicalIndex 1 = .ok ci ∧
    c.f (ci.map .ofKey) = .ok [1] := by
  obtain ⟨c, h1, h2, hb⟩ := oneStruct_built (p := ⟨.dense 2 2, false, none, none⟩) (Sparsity.dense_canon _ _)
  obtain ⟨c', h1', _, h⟩ := C42_partial (V := ℚ) (oneStruct ⟨.dense 2 2, false, none, none⟩) (oneStruct_wf (Sparsity.dense_canon _ _))
  rw [h1] at h1'
  cases h1'
  obtain ⟨ci, p, m, hl, _, _, _, h5⟩ := h 1 (by rw [hb.size]; decide)
  have hp : p = ⟨.dense 2 2, false, none, none⟩ := by
    cases hl with
    | prim he _ => simp [oneStruct] at he; exact he.2.2
    | nested he _ _ => simp [oneStruct] at he
  obtain ⟨ci1, h6, h7⟩ := h5 (by rw [hp]; rfl)
  exact ⟨c, ci1, h1, h6, h7⟩

/-- C38, C40: the position 7 of `exStruct` is the element (0, 0) of `P` in the second repetition of `n`, and nothing else. -/
example : ∃ c, CS.ofStruct exStruct = .ok c ∧ (∃ m, c.i (V := ℚ) [.str "n", .int 1, .str "P"] = .ok (.leaf m) ∧
    m.nzAt (0, 0) = some 7) ∧ ∀ x y : CIdx × (ℕ × ℕ),
      (∃ p m, IsLeaf exStruct.entries x.1 p ∧ c.i (V := ℚ) (x.1.map .ofKey) = .ok (.leaf m) ∧ m.nzAt x.2 = some 7) →
      (∃ p m, IsLeaf exStruct.entries y.1 p ∧ c.i (V := ℚ) (y.1.map .ofKey) = .ok (.leaf m) ∧ m.nzAt y.2 = some 7) → x = y := by
  obtain ⟨c, h1, -, h2⟩ := C38_partition (V := ℚ) exStruct exStruct_wf
  obtain ⟨c1, h3, h4, -⟩ := C39_size exStruct exStruct_wf
  rw [h1] at h3
  cases h3
  obtain ⟨c2, c', off, h5, h6, -, h7, h8⟩ := C40_nested (V := ℚ) exStruct exStruct_wf [.str "n", .int 1] exNested [.one "u", .one "P"]
    (.top (dims := [2]) (by simp [exStruct]) (.cons ⟨1, by decide, rfl⟩ .nil))
  rw [h1] at h5
  cases h5
  have hP : IsLeaf exNested [.str "P"] ⟨.upper 2, false, none, none⟩ := .prim (dims := []) (by simp [exNested]) .nil
  have hw' : WFs exNested [.one "u", .one "P"] := exStruct_wf.sub "n" [2] _ _ (by simp [exStruct])
  -- the block starts at 6
  have hoff : off = 6 := by
    obtain ⟨c3, c4, h9, h10, h11⟩ := C40_nested_position (V := ℚ) exStruct.entries [.one "x"] [.tup ["a", "b"]] "n" [2] exNested
      [.one "u", .one "P"] exStruct_wf (by simp [exStruct]) ⟨_, _, hP⟩ [1] (.cons (by decide) .nil)
    rw [show (⟨exStruct.entries, [.one "x"] ++ .one "n" :: [.tup ["a", "b"]]⟩ : Struct) = exStruct from rfl, h1] at h9
    cases h9
    rw [h6] at h10
    cases h10
    obtain ⟨c'', h12, hs, -⟩ := C39_size ⟨exNested, [.one "u", .one "P"]⟩ hw'
    rw [h6] at h12
    cases h12
    rw [hs] at h11
    have h13 := h7 ⟨_, _, hP⟩
    rw [hs] at h13
    have h14 := h11.symm.trans h13
    injection h14 with h14
    injection h14 with h14
    have h15 := congrArg (fun m : IMat => m.data.head?) h14
    exact (Option.some.inj h15).symm
  obtain ⟨m, h9, h10⟩ := h8 _ _ hP
  obtain ⟨c3, h11, h12⟩ := C40_primitive (V := ℚ) exNested [.one "u"] [] "P" [] ⟨.upper 2, false, none, none⟩ hw' (by simp [exNested]) [] .nil
  rw [show (⟨exNested, [.one "u"] ++ .one "P" :: []⟩ : Struct) = ⟨exNested, [.one "u", .one "P"]⟩ from rfl, h6] at h11
  cases h11
  have h13 := h9.symm.trans h12
  injection h13 with h13
  injection h13 with h13
  subst h13 hoff
  exact ⟨c, h1, ⟨_, h10, by decide⟩, fun x y hx hy => (h2 7 (by rw [h4]; decide)).unique hx hy⟩

/-- C41: the group of `exStruct` occupies the positions 10, ..., 16, and `b[0]` lies before `a[1]`. -/
example : ∃ c, CS.ofStruct exStruct = .ok c ∧ ∀ ma mb, c.i (V := ℚ) [.str "a", .int 1] = .ok (.leaf ma) →
    c.i (V := ℚ) [.str "b", .int 0] = .ok (.leaf mb) → (∀ x ∈ ma.data, 10 ≤ x ∧ x < 17) ∧ ∀ y ∈ mb.data, ∀ x ∈ ma.data, y < x := by
  obtain ⟨c, h1, h2, h3⟩ := C41_group (V := ℚ) exStruct.entries [.one "x", .one "n"] [] ["a", "b"] exStruct_wf
  have ha : IsLeaf exStruct.entries [.str "a", .int 1] ⟨.dense 1 1, false, none, none⟩ :=
    .prim (dims := [3]) (by simp [exStruct]) (.cons ⟨1, by decide, rfl⟩ .nil)
  have hb : IsLeaf exStruct.entries [.str "b", .int 0] ⟨.dense 2 1, false, none, none⟩ :=
    .prim (dims := [2]) (by simp [exStruct]) (.cons ⟨0, by decide, rfl⟩ .nil)
  refine ⟨c, h1, fun ma mb hma hmb => ⟨h2 "a" _ _ _ (by simp) ha hma, ?_⟩⟩
  exact h3 1 0 "b" "a" _ _ _ _ _ _ rfl rfl hb ha hmb hma (.inl (by decide))

end CE.St
