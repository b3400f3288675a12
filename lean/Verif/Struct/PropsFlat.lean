import Verif.Struct.LemFlat
import Verif.Struct.LemProduct
import Verif.Struct.PropsAll

/-! # C68: the flat getter `s.f` -/

namespace CE.St

theorem M.forEach_pure {σ α β : Type} (l : List α) (f : α → M σ β) (h : α → β) (hf : ∀ a ∈ l, f a = M.pure (h a)) :
    M.forEach l f = M.pure (l.map h) := by
  induction l with
  | nil => rfl
  | cons a l ih =>
    rw [M.forEach, hf a List.mem_cons_self, ih fun b hb => hf b (List.mem_cons_of_mem _ hb)]
    rfl

theorem vec_goList {α : Type} (l : List α) (f : α → Tree (List ℤ)) (g : α → List ℤ) (h : ∀ a ∈ l, (f a).vec = .ok (g a)) :
    Tree.vec.goList (l.map f) = .ok (l.flatMap g) := by
  induction l with
  | nil => rfl
  | cons a l ih =>
    rw [List.map_cons, List.flatMap_cons]
    exact vec_cons.2 ⟨_, _, h a List.mem_cons_self, ih fun b hb => h b (List.mem_cons_of_mem _ hb), rfl⟩

theorem nest_vec (ds : List ℕ) : ∀ g : List ℕ → List ℤ, (nest ds g).vec = .ok ((tuples ds).flatMap g) := by
  induction ds with
  | nil =>
    intro g
    rw [nest, Tree.vec, tuples]
    simp
  | cons d ds ih =>
    intro g
    rw [nest, Tree.vec, vec_goList _ _ (fun i => (tuples ds).flatMap fun is => g (i :: is)) fun i _ => ih _]
    rw [tuples, List.flatMap_assoc]
    simp only [flatMap_map']

theorem goEntry_pure {σ V F R : Type} (d : Disp σ V F R) (leaf : Trav σ V F R) (inner : Bool) (ds : List ℕ) :
    ∀ (c : CIdx) (g : List ℕ → R),
      (∀ is, List.Forall₂ (· < ·) is ds → leaf [] inner (c ++ natKeys is) .none = M.pure (.leaf (g is))) →
      goEntry d leaf ds [] inner c .none = M.pure (nest ds g) := by
  induction ds with
  | nil =>
    intro c g h
    have := h [] .nil
    simp only [natKeys, List.map_nil, List.append_nil] at this
    rw [goEntry_nil, this, nest]
  | cons s ds ih =>
    intro c g h
    rw [goEntry_pending, M.forEach_map, M.forEach_pure _ _ (fun i => nest ds fun is => g (i :: is))]
    · rfl
    · intro i hi
      have hi := List.mem_range.1 hi
      show goEntry d leaf (s :: ds) [.int i] inner c .none = _
      rw [goEntry_int]
      apply ih
      intro is his
      have := h (i :: is) (.cons hi his)
      rw [canonical, if_neg (by omega)]
      rw [natKeys, List.map_cons] at this
      rw [List.append_assoc]
      exact this

variable {V : Type}

/-- **C68**: for every struct and every power index without callables, `s.f[index]` is the list `l` exactly if `s.i[index]`
is a nested list of dense index matrices and `l` lists their elements, in order. -/
theorem C68_flat (c : CS) (pi : List (PIdx Empty)) (l : List ℤ) :
    c.f pi = .ok l ↔ ∃ t, c.i (V := V) (pi.map .lift) = .ok t ∧ Flat t l := by
  have h := goStruct_flat (V := V) c.map c.struct.keys (travTable_flat c.map c.struct.entries) pi false [] l
  rw [CS.f, CS.i, Struct.traverse_fst, Struct.traverse_fst]
  simp only
  generalize hx : (goStruct (imDisp (V := V) c.map) c.struct.keys _ (pi.map .lift) false [] .none ()).1 = x at h ⊢
  generalize hy : (goStruct (flatDisp (V := Empty) c.map) c.struct.keys _ pi false [] .none ()).1 = y at h ⊢
  have h1 : (gen y).bind Tree.vec = .ok l ↔ ∃ t, y = .ok t ∧ t.vec = .ok l := by
    cases y with
    | error e => simp [gen, Except.bind]
    | ok t => simp [gen, Except.bind]
  have h2 : ∀ t, gen x = .ok t ↔ x = .ok t := by
    intro t
    cases x with
    | error e => simp [gen]
    | ok t => simp [gen]
  simp only [h1, h2]
  exact h

/-- **C68**: what `s.f[...]` returns for a whole struct.  If all primitive entries are dense and no nested struct is empty,
`s.f[...]` lists every position of the vector exactly once; without groups in `order` it is `[0, 1, .., size - 1]`. -/
theorem C68_all (s : Struct) (hwf : WFs s.entries s.order) (c : CS) (hc : CS.ofStruct s = .ok c)
    (hd : ∀ n d p, Entry.prim n d p ∈ s.entries → p.sp.nz.length = p.sp.rows * p.sp.cols)
    (hn : ∀ n d es' o', Entry.nested n d es' o' ∈ s.entries → ∃ a p, IsLeaf es' a p) :
    ∃ l, c.f [.ellipsis] = .ok l ∧ l.Perm ((List.range c.size).map fun k : ℕ => (k : ℤ)) ∧
      ((∀ oi ∈ s.order, ∃ n, oi = .one n) → l = (List.range c.size).map fun k : ℕ => (k : ℤ)) := by
  obtain ⟨c', ls, hc', rfl, hb⟩ := ofStruct_built hwf
  rw [hc] at hc'
  cases hc'
  let master : List ℤ := (List.range c.size).map fun k : ℕ => (k : ℤ)
  have hlen : master.length = c.size := by simp [master]
  have hmt := hb.master_tops hwf hlen
  obtain ⟨E, hE, hEk⟩ := perm_map_exists Entry.name hwf.perm c.struct.entries rfl
  have hkeys : c.struct.keys = E.map Entry.name := hEk.symm
  -- one repetition of an entry
  have hone : ∀ e ∈ c.struct.entries, ∀ is, List.Forall₂ (· < ·) is e.dims →
      Entry.leafTrav (flatDisp (V := Empty) c.map) e [] false ([.str e.name] ++ natKeys is) .none =
        M.pure (.leaf (stored c master (.str e.name :: natKeys is))) := by
    intro e he is his
    have hks := natKeys_inDims his
    have key : ∀ (x : Option Prim) (q : Option Prim) (sp : Sparsity), IsPart c.struct.entries (.str e.name :: natKeys is) q sp →
        sp.nz.length = sp.rows * sp.cols →
        M.bind ((flatDisp (V := Empty) c.map).call false .none (.str e.name :: natKeys is) none x)
          (fun r => M.pure (Tree.leaf r)) = M.pure (Tree.leaf (stored c master (.str e.name :: natKeys is))) := by
      intro x q sp hp hsp
      obtain ⟨i, hg, hw, hnd, hin, rfl⟩ := hb.part hwf hp
      have : flatCall (fun f : Empty => f.elim) c.map (.str e.name :: natKeys is) none x =
          .ok (stored c master (.str e.name :: natKeys is)) := by
        rw [flatCall, hg, stored, hg]
        simp only [Option.getD_none, performExtraIndex, Except.bind, Sparsity.isDense, hsp]
        rw [if_pos (by simp)]
        congr 1
        apply List.map_congr_left
        intro k hk
        have := hin k hk
        simp [master, List.getD_eq_getElem?_getD, this]
      show M.bind (ex (flatCall _ c.map (.str e.name :: natKeys is) none x)) _ = _
      rw [this]
      rfl
    cases e with
    | prim n d p =>
      rw [Entry.leafTrav]
      exact key _ _ _ (.leaf (.prim he hks)) (hd n d p he)
    | nested n d es' o' =>
      rw [Entry.leafTrav]
      obtain ⟨a, p, hl⟩ := hn n d es' o' he
      exact key _ _ _ (.node (.top he hks) hl) (by rw [Sparsity.dense, Sparsity.positions_length])
  have hall : goStruct (flatDisp (V := Empty) c.map) c.struct.keys (travTable (flatDisp c.map) c.struct.entries) [.ellipsis]
      false [] .none = M.pure (.list (E.map fun e => nest e.dims fun is => stored c master (.str e.name :: natKeys is))) := by
    rw [goStruct_ellipsis, M.forEach_pure _ _ (fun ki => ((E[ki.2]?).map fun e => nest e.dims fun is =>
      stored c master (.str e.name :: natKeys is)).getD (.list []))]
    · show M.pure _ = _
      congr 2
      rw [hkeys]
      apply List.ext_getElem
      · simp
      · intro i g1 g2
        simp at g2
        simp [g2]
    · rintro ⟨k, i⟩ hki
      rw [hkeys, List.mem_zipIdx_iff_getElem?] at hki
      simp only [List.getElem?_map, Option.map_eq_some_iff] at hki
      obtain ⟨e, he, rfl⟩ := hki
      have hm : e ∈ c.struct.entries := hE.mem_iff.1 (List.mem_of_getElem? he)
      show goStruct (flatDisp (V := Empty) c.map) c.struct.keys (travTable (flatDisp c.map) c.struct.entries) [.str e.name]
        false [] .none = _
      rw [goStruct_entry _ _ hwf.nodup hm]
      simp only [he, Option.map_some, Option.getD_some]
      exact goEntry_pure _ _ _ _ _ _ (hone e hm)
  refine ⟨E.flatMap fun e => (tuples e.dims).flatMap fun is => stored c master (.str e.name :: natKeys is), ?_, ?_, ?_⟩
  · rw [CS.f, Struct.traverse_fst, hall]
    show Tree.vec (.list _) = _
    rw [Tree.vec]
    exact vec_goList _ _ _ fun e _ => nest_vec _ _
  · have h1 : (E.flatMap fun e => (tuples e.dims).flatMap fun is => stored c master (.str e.name :: natKeys is)) =
        (E.flatMap fun e => (listindices e.dims).map fun ks => .str e.name :: ks).flatMap (stored c master) := by
      rw [List.flatMap_assoc]
      simp only [listindices_tuples, List.map_map, flatMap_map', Function.comp]
    rw [h1]
    refine List.Perm.trans ?_ (List.Perm.of_eq hmt.symm)
    refine List.Perm.flatMap_right _ ?_
    exact (List.Perm.flatMap_right _ hE).trans (tops_perm hwf).symm
  · intro hg
    refine Eq.trans ?_ hmt.symm
    have ho : c.struct.order = E.map fun e => .one e.name := by
      have h1 : ∀ (o : List OrderItem), (∀ oi ∈ o, ∃ n, oi = .one n) → o = (o.flatMap OrderItem.names).map .one := by
        intro o
        induction o with
        | nil => intro _; rfl
        | cons oi o ih =>
          intro h
          obtain ⟨n, rfl⟩ := h oi List.mem_cons_self
          rw [List.flatMap_cons, List.map_append, ← ih fun oi h' => h oi (List.mem_cons_of_mem _ h')]
          rfl
      rw [h1 _ hg, ← hEk, List.map_map]
      rfl
    rw [tops_eq, ho, flatMap_map', List.flatMap_assoc]
    apply List.flatMap_congr
    intro e he
    rw [itemTop, dictEntry_of_mem hwf.nodup (hE.mem_iff.1 he)]
    simp only [Option.map_some, Option.getD_some, listindices_tuples, List.map_map, flatMap_map', Function.comp]

/-- **C68**: all numbers in `s.f[index]` are positions of the vector. -/
theorem C68_range (s : Struct) (hwf : WFs s.entries s.order) (c : CS) (hc : CS.ofStruct s = .ok c) (pi : List (PIdx Empty))
    (l : List ℤ) (h : c.f pi = .ok l) : ∀ k ∈ l, 0 ≤ k ∧ k < c.size := by
  obtain ⟨c', ls, hc', rfl, hb⟩ := ofStruct_built hwf
  rw [hc] at hc'
  cases hc'
  exact CS.f_lt hb hwf h

/-- **C68**: `s.f` raises for every element whose pattern is not dense. -/
theorem C68_sparse (s : Struct) (hwf : WFs s.entries s.order) (c : CS) (hc : CS.ofStruct s = .ok c) (ci : CIdx) (p : Prim)
    (h : IsLeaf s.entries ci p) (hd : p.sp.nz.length ≠ p.sp.rows * p.sp.cols) : c.f (ci.map .ofKey) = .error .generic := by
  obtain ⟨c', ls, hc', rfl, hb⟩ := ofStruct_built hwf
  rw [hc] at hc'
  cases hc'
  obtain ⟨i, hg, _, _, _, hsp⟩ := hb.part hwf (.leaf h)
  have := c.f_leaf hwf h [] hg
  rw [List.append_nil] at this
  rw [this]
  simp only [performExtraIndex, Sparsity.isDense, hsp]
  rw [if_neg (by simpa using hd)]

/-! ### Examples -/

/-- Two repeated entries in a group. -/
def groupStruct : Struct := ⟨[.prim "a" [2] ⟨.dense 1 1, false, none, none⟩, .prim "b" [2] ⟨.dense 1 1, false, none, none⟩],
  [.tup ["a", "b"]]⟩

theorem groupStruct_wf : WFs groupStruct.entries groupStruct.order := by
  refine .mk (by simp [groupStruct, Entry.name]) (by simp [groupStruct, OrderItem.names, Entry.name]) ?_ ?_
  · intro n d q hq
    simp only [groupStruct, List.mem_cons, List.not_mem_nil, or_false, Entry.prim.injEq] at hq
    rcases hq with ⟨_, _, rfl⟩ | ⟨_, _, rfl⟩ <;> exact Sparsity.dense_canon _ _
  · intro n d es o hq
    simp [groupStruct] at hq

/-- **C68** (groups): with a group in `order`, `s.f[...]` is in general not sorted: the entries are listed one after the
other although their elements alternate in the vector. -/
theorem C68_group : ∃ c, CS.ofStruct groupStruct = .ok c ∧ c.size = 4 ∧ c.f [.ellipsis] = .ok [0, 2, 1, 3] := by
  obtain ⟨c, ls, h1, h2, hb⟩ := ofStruct_built groupStruct_wf
  have hwf' : WFs c.struct.entries c.struct.order := by rw [h2]; exact groupStruct_wf
  have hs : c.size = 4 := by rw [hb.size_eq hwf', h2]; rfl
  have htops : tops c.struct.entries c.struct.order = [[.str "a", .int 0], [.str "b", .int 0], [.str "a", .int 1],
      [.str "b", .int 1]] := by rw [h2]; decide
  have hea : Entry.prim "a" [2] ⟨.dense 1 1, false, none, none⟩ ∈ c.struct.entries := by rw [h2]; exact List.mem_cons_self
  have heb : Entry.prim "b" [2] ⟨.dense 1 1, false, none, none⟩ ∈ c.struct.entries := by
    rw [h2]; exact List.mem_cons_of_mem _ List.mem_cons_self
  have hd : ∀ i : ℕ, i < 2 → InDims [.int i] [2] := fun i hi => .cons ⟨i, hi, rfl⟩ .nil
  have g1 : dictGet c.map [.str "a", .int 0] = some ⟨.dense 1 1, [0]⟩ := by
    refine (hb.top_pos hwf' hea (hd 0 (by decide)) (A := []) (B := _) htops).trans ?_
    simp only [h2]
    rfl
  have g2 : dictGet c.map [.str "b", .int 0] = some ⟨.dense 1 1, [1]⟩ := by
    refine (hb.top_pos hwf' heb (hd 0 (by decide)) (A := [[.str "a", .int 0]]) (B := _) htops).trans ?_
    simp only [h2]
    rfl
  have g3 : dictGet c.map [.str "a", .int 1] = some ⟨.dense 1 1, [2]⟩ := by
    refine (hb.top_pos hwf' hea (hd 1 (by decide)) (A := [[.str "a", .int 0], [.str "b", .int 0]]) (B := _) htops).trans ?_
    simp only [h2]
    rfl
  have g4 : dictGet c.map [.str "b", .int 1] = some ⟨.dense 1 1, [3]⟩ := by
    refine (hb.top_pos hwf' heb (hd 1 (by decide)) (A := [[.str "a", .int 0], [.str "b", .int 0], [.str "a", .int 1]])
      (B := _) htops).trans ?_
    simp only [h2]
    rfl
  refine ⟨c, h1, hs, ?_⟩
  rw [CS.f, Struct.traverse_fst]
  simp only [h2]
  rw [goStruct_ellipsis, M.forEach_pure _ _ (fun ki => nest [2] fun is =>
    [if ki.2 = 0 then if is = [0] then 0 else 2 else if is = [0] then 1 else 3])]
  · rfl
  · intro ki hki
    have : ki = ("a", 0) ∨ ki = ("b", 1) := by simpa [groupStruct, Struct.keys, OrderItem.names] using hki
    have his : ∀ is, List.Forall₂ (· < ·) is [2] → is = [0] ∨ is = [1] := by
      intro is his
      have := mem_tuples.2 his
      simpa [tuples, List.range, List.range.loop] using this
    rcases this with rfl | rfl
    · show goStruct (flatDisp (V := Empty) c.map) groupStruct.keys (travTable (flatDisp c.map) groupStruct.entries) [.str "a"]
        false [] .none = _
      rw [← h2, show "a" = (Entry.prim "a" [2] ⟨.dense 1 1, false, none, none⟩).name from rfl,
        goStruct_entry _ _ hwf'.nodup hea]
      refine goEntry_pure _ _ _ _ _ _ fun is h => ?_
      rw [Entry.leafTrav]
      rcases his is h with rfl | rfl
      · show M.bind (ex (flatCall _ c.map [.str "a", .int 0] none _)) _ = _
        rw [flatCall, g1]
        rfl
      · show M.bind (ex (flatCall _ c.map [.str "a", .int 1] none _)) _ = _
        rw [flatCall, g3]
        rfl
    · show goStruct (flatDisp (V := Empty) c.map) groupStruct.keys (travTable (flatDisp c.map) groupStruct.entries) [.str "b"]
        false [] .none = _
      rw [← h2, show "b" = (Entry.prim "b" [2] ⟨.dense 1 1, false, none, none⟩).name from rfl,
        goStruct_entry _ _ hwf'.nodup heb]
      refine goEntry_pure _ _ _ _ _ _ fun is h => ?_
      rw [Entry.leafTrav]
      rcases his is h with rfl | rfl
      · show M.bind (ex (flatCall _ c.map [.str "b", .int 0] none _)) _ = _
        rw [flatCall, g2]
        rfl
      · show M.bind (ex (flatCall _ c.map [.str "b", .int 1] none _)) _ = _
        rw [flatCall, g4]
        rfl

example : ∃ c, CS.ofStruct (oneStruct ⟨.dense 2 2, false, none, none⟩) = .ok c ∧ c.f [.ellipsis] = .ok [0, 1, 2, 3] := by
  have hc : (Sparsity.dense 2 2).Canon := Sparsity.dense_canon _ _
  obtain ⟨c, h1, h2, hb⟩ := oneStruct_built (p := ⟨.dense 2 2, false, none, none⟩) hc
  obtain ⟨l, g1, _, g2⟩ := C68_all _ (oneStruct_wf hc) c h1 (by
    intro n d p hp
    simp only [oneStruct, List.mem_singleton, Entry.prim.injEq] at hp
    obtain ⟨_, _, rfl⟩ := hp
    rfl) (by intro n d es' o' h; simp [oneStruct] at h)
  refine ⟨c, h1, ?_⟩
  rw [g1, g2 (by intro oi h; simp [oneStruct] at h; exact ⟨_, h⟩), hb.size]
  rfl

example : ∃ c, CS.ofStruct (oneStruct ⟨.upper 2, true, some (.dense 2 2), none⟩) = .ok c ∧
    c.f [.str "P"] = .error .generic := by
  have hc : (Sparsity.upper 2).Canon := Sparsity.ofPred_canon _ _ _
  obtain ⟨c, h1, h2, hb⟩ := oneStruct_built (p := ⟨.upper 2, true, some (.dense 2 2), none⟩) hc
  exact ⟨c, h1, C68_sparse _ (oneStruct_wf hc) c h1 [.str "P"] _ (oneStruct_leaf _) (by decide)⟩

end CE.St
