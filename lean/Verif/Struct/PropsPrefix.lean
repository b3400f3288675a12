import Verif.Struct.LemView
import Verif.Struct.PropsObj
import Verif.Struct.Prefix

/-! # Prefixes (C59) and per-column views (C50) -/

namespace CE.St

variable {V : Type}

/-! ## From dispatchers to objects -/

theorem RRel.gen_eq {σ σ' α : Type} {S : σ → σ' → Prop} {x : Except PyErr α × σ} {y : Except PyErr α × σ'}
    (h : RRel S (· = ·) x y) : x.1 = y.1 ∧ S x.2 y.2 := by
  rcases x with ⟨r, u⟩
  rcases y with ⟨r', u'⟩
  cases r <;> cases r'
  · exact ⟨congrArg _ h.1, h.2⟩
  · exact h.elim
  · exact h.elim
  · exact ⟨congrArg _ h.1, h.2⟩

/-- The two objects: reading and writing below a nested struct. -/
theorem moved_access [Zero V] [Add V] [Sub V] {c c' : CS} (hwf : WFs c.struct.entries c.struct.order) {a : CIdx}
    (h : IsNode c.struct.entries a c'.struct.entries c'.struct.order) {pre sub post : List V} (hm : Moved c c' a pre.length)
    (hl : sub.length = c'.size) (q : List (PIdx (PyFn V))) (hq : ∃ p ∈ q, p.isFn = false) (hf : Fns PyFn.Rearranges q) :
    (⟨c, pre ++ sub ++ post, []⟩ : Obj V).getitem (a.map .ofKey ++ q) = (⟨c', sub, []⟩ : Obj V).getitem q ∧
      ∀ v, ∃ sub', sub'.length = c'.size ∧
        (⟨c', sub, []⟩ : Obj V).setitem q v = (((⟨c', sub, []⟩ : Obj V).setitem q v).1, ⟨c', sub', []⟩) ∧
        (⟨c, pre ++ sub ++ post, []⟩ : Obj V).setitem (a.map .ofKey ++ q) v =
          (((⟨c', sub, []⟩ : Obj V).setitem q v).1, ⟨c, pre ++ sub' ++ post, []⟩) := by
  constructor
  · rw [Obj.getitem, Obj.getitem, Struct.traverse_fst, Struct.traverse_fst]
    simp only
    rw [Struct.keys, goStruct_node _ hwf h, List.nil_append]
    have hr := goStruct_rel (getDisp_rel (post := post) hm hl) c'.struct.keys
      (travTable_rel (getDisp_rel (post := post) hm hl) c'.struct.entries (Prims.true _)) q false [] .none (.inr hq) hf () () rfl
    rw [List.append_nil] at hr
    exact congrArg gen hr.gen_eq.1
  · intro v
    have hr := goStruct_rel (setDisp_rel (post := post) hm) c'.struct.keys
      (travTable_rel (setDisp_rel (post := post) hm) c'.struct.entries (Prims.true _)) q false [] v (.inr hq) hf (pre ++ sub ++ post) sub
      ⟨rfl, hl⟩
    rw [List.append_nil] at hr
    have e1 : (⟨c, pre ++ sub ++ post, []⟩ : Obj V).setitem (a.map .ofKey ++ q) v =
        ((gen (goStruct (setDisp c.map) c'.struct.keys (travTable (setDisp c.map) c'.struct.entries) q false a v
          (pre ++ sub ++ post)).1).map fun _ => (),
          ⟨c, (goStruct (setDisp c.map) c'.struct.keys (travTable (setDisp c.map) c'.struct.entries) q false a v
          (pre ++ sub ++ post)).2, []⟩) := by
      rw [Obj.setitem, Struct.traverse_fst]
      simp only
      rw [Struct.keys, goStruct_node _ hwf h, List.nil_append]
      show _ = ((gen (goStruct (setDisp c.map) (c'.struct.order.flatMap OrderItem.names)
        (travTable (setDisp c.map) c'.struct.entries) q false a v (pre ++ sub ++ post)).1).map fun _ => (), _)
      rcases hg : goStruct (setDisp c.map) (c'.struct.order.flatMap OrderItem.names) (travTable (setDisp c.map) c'.struct.entries)
        q false a v (pre ++ sub ++ post) with ⟨r, u⟩
      rw [show goStruct (setDisp c.map) c'.struct.keys (travTable (setDisp c.map) c'.struct.entries)
        q false a v (pre ++ sub ++ post) = (r, u) from hg]
      cases r <;> rfl
    have e2 : (⟨c', sub, []⟩ : Obj V).setitem q v =
        ((gen (goStruct (setDisp c'.map) c'.struct.keys (travTable (setDisp c'.map) c'.struct.entries) q false [] v sub).1).map
          fun _ => (), ⟨c', (goStruct (setDisp c'.map) c'.struct.keys (travTable (setDisp c'.map) c'.struct.entries) q false [] v
          sub).2, []⟩) := by
      rw [Obj.setitem, Struct.traverse_fst]
      simp only
      rcases goStruct (setDisp c'.map) c'.struct.keys (travTable (setDisp c'.map) c'.struct.entries) q false [] v sub with ⟨r, u⟩
      cases r <;> rfl
    rw [e1, e2]
    rcases hx : goStruct (setDisp c.map) c'.struct.keys (travTable (setDisp c.map) c'.struct.entries) q false a v
          (pre ++ sub ++ post) with ⟨r, u⟩
    rcases hy : goStruct (setDisp c'.map) c'.struct.keys (travTable (setDisp c'.map) c'.struct.entries) q false [] v
          sub with ⟨r', u'⟩
    rw [hx, hy] at hr
    cases r with
    | ok t => cases r' with
      | ok t' =>
        obtain ⟨_, rfl, h2⟩ := hr
        exact ⟨u', h2, rfl, rfl⟩
      | error _ => exact hr.elim
    | error e => cases r' with
      | ok _ => exact hr.elim
      | error e' =>
        obtain ⟨_, rfl, h2⟩ := hr
        exact ⟨u', h2, rfl, rfl⟩

theorem wsum_le_size {c : CS} {ls} (hb : Built c ls) (hwf : WFs c.struct.entries c.struct.order) {a es' o'}
    (h : IsNode c.struct.entries a es' o') {c' : CS} {ls'} (hb' : Built c' ls') (hs : c'.struct = ⟨es', o'⟩) {A B : List CIdx}
    (hAB : leafList c.struct.entries c.struct.order = A ++ (leafList es' o').map (a ++ ·) ++ B) :
    wsum c.struct.entries A + c'.size ≤ c.size := by
  have hw' : WFs c'.struct.entries c'.struct.order := by rw [hs]; exact h.wf hwf
  rw [hb.size_eq hwf, ← wsum_leafList hwf, hAB, wsum_append, wsum_append, hb'.size_eq hw', hs, ← wsum_leafList (h.wf hwf),
    wsum_prefix hwf h fun x hx => hx]
  omega

/-- **C59** (indices): `s.prefix[p][q]` reads `s[p + q]` and writes `s[p + q]`, for every prefix, index and value, and keeps
the prefix; `s.prefix[p]()` reads `s[p]`. -/
theorem C59_concat [Zero V] [Add V] [Sub V] (o : Obj V) (p q : List (PIdx (PyFn V))) (v : Pay V) :
    (o.prefix p).getitem q = o.getitem (p ++ q) ∧ (o.prefix p).call = o.getitem p ∧ (o.prefix p).cast = o.getitem p ∧
      (o.prefix p).setitem q v = ((o.setitem (p ++ q) v).1, (o.setitem (p ++ q) v).2.prefix p) := ⟨rfl, rfl, rfl, rfl⟩

/-- **C59** (what it means): if `a` is the canonical index of a nested struct, `s.prefix[a]` behaves like an object of its own
that has the nested struct and the part of the data of `s` at `s.i[a]`: for every power index `q` (any mixture of names, repeat
indices, slices, lists, sets, `...`, `{}`, callables that only rearrange, extra indices) both read the same or both raise,
and after `s.prefix[a][q] = v` the data of `s` are those after the same write to the small object, with everything outside
the part untouched. -/
theorem C59_node [Zero V] [Add V] [Sub V] (s : Struct) (hwf : WFs s.entries s.order) (a : CIdx) (es' : List Entry)
    (o' : List OrderItem) (ha : IsNode s.entries a es' o') :
    ∃ c c' off, CS.ofStruct s = .ok c ∧ CS.ofStruct ⟨es', o'⟩ = .ok c' ∧ off + c'.size ≤ c.size ∧
      ((∃ d p, IsLeaf es' d p) → c.i (V := V) (a.map .ofKey) =
        .ok (.leaf (.col ((List.range c'.size).map fun j => off + j)))) ∧
      ∀ (pre sub post : List V), pre.length = off → sub.length = c'.size →
        ∀ q : List (PIdx (PyFn V)), (∃ p ∈ q, ∀ f, p ≠ .fn f) → (∀ f, .fn f ∈ q → f.Rearranges) →
          ((⟨c, pre ++ sub ++ post, []⟩ : Obj V).prefix (a.map .ofKey)).getitem q = (⟨c', sub, []⟩ : Obj V).getitem q ∧
          ∀ v, ∃ r sub', sub'.length = c'.size ∧ (⟨c', sub, []⟩ : Obj V).setitem q v = (r, ⟨c', sub', []⟩) ∧
            ((⟨c, pre ++ sub ++ post, []⟩ : Obj V).prefix (a.map .ofKey)).setitem q v =
              (r, (⟨c, pre ++ sub' ++ post, []⟩ : Obj V).prefix (a.map .ofKey)) := by
  obtain ⟨c, ls, h1, rfl, hb⟩ := ofStruct_built hwf
  obtain ⟨c', ls', h1', h2', hb'⟩ := ofStruct_built (s := ⟨es', o'⟩) (ha.wf hwf)
  obtain ⟨A, B, hAB⟩ := ha.infix hwf
  have hw' : WFs c'.struct.entries c'.struct.order := by rw [h2']; exact ha.wf hwf
  refine ⟨c, c', wsum c.struct.entries A, h1, h1', wsum_le_size hb hwf ha hb' h2' hAB.symm,
    (node_shift (V := V) hb hwf ha h1' hAB.symm).1, ?_⟩
  intro pre sub post hpre hsub q hq hf
  have hm : Moved c c' a pre.length :=
    ⟨by rw [hpre]; exact hb.get_shift hwf ha hb' h2' hAB.symm, fun d m hd => hb'.get_lt hw' hd⟩
  have hq' : ∃ p ∈ q, p.isFn = false := by
    obtain ⟨p, hp, h⟩ := hq
    refine ⟨p, hp, ?_⟩
    cases p with
    | fn f => exact absurd rfl (h f)
    | _ => rfl
  have hf' : Fns PyFn.Rearranges q := by
    rintro p hp f rfl
    exact hf f hp
  have ha' : IsNode c.struct.entries a c'.struct.entries c'.struct.order := by rw [h2']; exact ha
  obtain ⟨h3, h4⟩ := moved_access (post := post) hwf ha' hm hsub q hq' hf'
  refine ⟨h3, fun v => ?_⟩
  obtain ⟨sub', h5, h6, h7⟩ := h4 v
  exact ⟨_, sub', h5, h6, by rw [(C59_concat _ _ _ _).2.2.2, h7]⟩

/-! ## C50 -/

theorem SMat.dense_at' [Zero V] {l : List V} {n m : ℕ} (h : l.length = n * m) {i j : ℕ} (hi : i < n) (hj : j < m) :
    (⟨.dense n m, l⟩ : SMat V).at' (i, j) = l.getD (j * n + i) 0 := by
  have hlt : j * n + i < n * m := by
    calc j * n + i < j * n + n := by omega
      _ = (j + 1) * n := by ring
      _ ≤ m * n := Nat.mul_le_mul_right _ hj
      _ = n * m := by ring
  have : (⟨.dense n m, l⟩ : SMat V).nzAt (i, j) = some (l.getD (j * n + i) 0) := by
    rw [SMat.nzAt_eq_some (Sparsity.dense_canon _ _)]
    refine ⟨j * n + i, ?_, ?_⟩
    · show (Sparsity.positions n m)[j * n + i]? = _
      rw [Sparsity.positions_eq, List.getElem?_map, List.getElem?_range hlt]
      simp only [Option.map_some, Option.some.injEq, Prod.mk.injEq]
      constructor
      · rw [Nat.add_comm, Nat.add_mul_mod_self_right, Nat.mod_eq_of_lt hi]
      · rw [Nat.add_comm, Nat.add_mul_div_right _ _ (by omega), Nat.div_eq_of_lt hi, Nat.zero_add]
    · show l[j * n + i]? = _
      rw [List.getElem?_eq_getElem (by omega), List.getD_eq_getElem?_getD, List.getElem?_eq_getElem (by omega)]
      rfl
  rw [SMat.at', this]
  rfl

/-- The struct of `repeated`. -/
theorem repeated_wf {s : Struct} (hwf : WFs s.entries s.order) (n : ℕ) :
    WFs [.nested "t" [n] s.entries s.order] [.one "t"] := by
  refine .mk (by simp) (by simp [OrderItem.names, Entry.name]) ?_ ?_
  · intro n' d p h; simp at h
  · intro n' d es' o h
    simp only [List.mem_singleton, Entry.nested.injEq] at h
    obtain ⟨-, -, rfl, rfl⟩ := h
    exact hwf

/-- The data of column `j`. -/
def colData (a : List V) (n j : ℕ) : List V := (a.drop (j * n)).take n

theorem split_col (a : List V) {n m j : ℕ} (ha : a.length = n * m) (hj : j < m) :
    a = a.take (j * n) ++ colData a n j ++ a.drop ((j + 1) * n) ∧ (a.take (j * n)).length = j * n ∧ (colData a n j).length = n := by
  have hlt : j * n + n ≤ n * m := by
    calc j * n + n = (j + 1) * n := by ring
      _ ≤ m * n := Nat.mul_le_mul_right _ hj
      _ = n * m := by ring
  refine ⟨?_, by rw [List.length_take]; omega, by rw [colData, List.length_take, List.length_drop]; omega⟩
  rw [colData, List.append_assoc, show (j + 1) * n = j * n + n by ring, ← List.drop_drop, List.take_append_drop,
    List.take_append_drop]

theorem colData_eq [Zero V] {l : List V} {n m j : ℕ} (h : l.length = n * m) (hj : j < m) :
    colData l n j = (List.range n).map fun i => (⟨.dense n m, l⟩ : SMat V).at' (i, j) := by
  obtain ⟨_, h2, h3⟩ := split_col l h hj
  apply List.ext_getElem
  · simp [h3]
  · intro k h4 h5
    have hk : k < n := by rw [h3] at h4; exact h4
    rw [List.getElem_map, List.getElem_range, SMat.dense_at' h hk hj, List.getD_eq_getElem?_getD]
    have : l[j * n + k]? = (colData l n j)[k]? := by
      rw [colData, List.getElem?_take, if_pos hk, List.getElem?_drop]
    rw [this, List.getElem?_eq_getElem h4]
    rfl

theorem CS.repeated_ok {c : CS} {ls} (hb : Built c ls) (hwf : WFs c.struct.entries c.struct.order) (m : ℕ) :
    ∃ cr lr, Built cr lr ∧ cr.struct = ⟨[.nested "t" [m] c.struct.entries c.struct.order], [.one "t"]⟩ ∧
      ∀ l : List V, l.length = c.size * m → c.repeated ⟨.dense c.size m, l⟩ =
        .ok { obj := ⟨cr, l, []⟩, pre := [.str "t"], castmaster := true, ref := some (c.size, m) } := by
  obtain ⟨cr, lr, h1, h2, hbr⟩ := ofStruct_built (s := ⟨[.nested "t" [m] c.struct.entries c.struct.order], [.one "t"]⟩)
    (repeated_wf hwf m)
  refine ⟨cr, lr, hbr, h2, ?_⟩
  intro l hl
  have hsz : cr.size = c.size * m := by
    rw [hbr.size_eq (by rw [h2]; exact repeated_wf hwf m), h2, hb.size_eq hwf]
    simp [countAll, Entry.count, Nat.mul_comm]
  rw [CS.repeated, if_neg (by simp [Sparsity.dense])]
  show Except.bind (CS.ofStruct ⟨[.nested "t" [m] c.struct.entries c.struct.order], [.one "t"]⟩) _ = _
  rw [h1]
  show (if ¬ (Sparsity.dense c.size m).isDense = true then _ else if cr.size ≠ c.size * m then _ else _) = _
  rw [if_neg (by simp [Sparsity.isDense, Sparsity.dense, Sparsity.positions_length]), if_neg (by omega)]
  rfl

/-- Column `j` inside the data of the view. -/
theorem repeated_col {c cr : CS} {ls lr} (hb : Built c ls) (hwf : WFs c.struct.entries c.struct.order) {m : ℕ} (hbr : Built cr lr)
    (hsr : cr.struct = ⟨[.nested "t" [m] c.struct.entries c.struct.order], [.one "t"]⟩) {j : ℕ} (hj : j < m) :
    WFs cr.struct.entries cr.struct.order ∧ IsNode cr.struct.entries [.str "t", .int j] c.struct.entries c.struct.order ∧
      Moved cr c [.str "t", .int j] (j * c.size) ∧
      ((∃ d p, IsLeaf c.struct.entries d p) → dictGet cr.map [.str "t", .int j] = some (.col (block (j * c.size) c.size))) := by
  have hwr : WFs cr.struct.entries cr.struct.order := by rw [hsr]; exact repeated_wf hwf m
  have hnode : IsNode cr.struct.entries [.str "t", .int j] c.struct.entries c.struct.order := by
    rw [hsr]
    exact .top (n := "t") (List.mem_singleton_self _) (.cons ⟨j, hj, rfl⟩ .nil)
  obtain ⟨A, B, hs, hwA⟩ := leafList_one (pre := []) (post := []) (es := [.nested "t" [m] c.struct.entries c.struct.order])
    (n := "t") (repeated_wf hwf m) (List.mem_singleton_self _) rfl (is := [j]) (.cons hj .nil)
  have hAB : leafList cr.struct.entries cr.struct.order =
      A ++ (leafList c.struct.entries c.struct.order).map ([.str "t", .int j] ++ ·) ++ B := by
    rw [hsr, List.nil_append] at *
    rw [hs, kids_nested]
    simp [natKeys]
  have hwA' : wsum cr.struct.entries A = j * c.size := by
    rw [hsr, hwA, hb.size_eq hwf]
    simp [ravel, Entry.dims, Entry.blockSize]
  refine ⟨hwr, hnode, ⟨by rw [← hwA']; exact hbr.get_shift hwr hnode hb rfl hAB, fun d m hd => hb.get_lt hwf hd⟩, ?_⟩
  rintro ⟨d, p, hd⟩
  have hnil : leafList c.struct.entries c.struct.order ≠ [] := fun h => (leafList_nil_iff hwf).1 h _ _ hd
  have hpos := hbr.node_pos hwr hnode hAB
  rwa [if_neg hnil, hwA', ← hb.size_eq hwf] at hpos

/-- **C50**: `struct.repeated(a)`, for a dense matrix `a` with `size` rows, gives a view that casts to `a`; indexing it with a
column number `j` and then any power index `q` reads what `q` reads in the struct with the data of column `j`; an assignment
through it returns or raises like the assignment to the struct with the data of column `j`, and afterwards the view is the
view of the matrix in which column `j` is replaced by the data of that struct after the assignment and all other columns are
unchanged. -/
theorem C50_repeated_partial [Zero V] [Add V] [Sub V] (s : Struct) (hwf : WFs s.entries s.order) :
    ∃ c, CS.ofStruct s = .ok c ∧ ∀ (a : SMat V), a.WF → a.sp = .dense c.size a.sp.cols →
      ∃ view, c.repeated a = .ok view ∧ view.cast = .ok (.leaf a) ∧
        ∀ j < a.sp.cols, ∀ q : List (PIdx (PyFn V)), (∃ p ∈ q, ∀ f, p ≠ .fn f) → (∀ f, .fn f ∈ q → f.Rearranges) →
          view.getitem (.int j :: q) =
            (⟨c, (List.range c.size).map fun i => a.at' (i, j), []⟩ : Obj V).getitem q ∧
          ∀ v, ∃ r col' a' view', (⟨c, (List.range c.size).map fun i => a.at' (i, j), []⟩ : Obj V).setitem q v =
              (r, ⟨c, col', []⟩) ∧ view.setitem (.int j :: q) v = (r, view') ∧
            a'.WF ∧ a'.sp = a.sp ∧ c.repeated a' = .ok view' ∧ view'.cast = .ok (.leaf a') ∧
            ((List.range c.size).map fun i => a'.at' (i, j)) = col' ∧
            ∀ i < c.size, ∀ j' < a.sp.cols, j' ≠ j → a'.at' (i, j') = a.at' (i, j') := by
  obtain ⟨c, ls, h1, rfl, hb⟩ := ofStruct_built hwf
  refine ⟨c, h1, ?_⟩
  rintro ⟨sp, l⟩ hw hsp
  simp only at hsp
  obtain ⟨m, hm⟩ : ∃ m, sp.cols = m := ⟨_, rfl⟩
  rw [hm] at hsp
  subst hsp
  have hl : l.length = c.size * m := by
    have := hw.2
    simpa [Sparsity.dense, Sparsity.positions_length] using this
  obtain ⟨cr, lr, hbr, hsr, hrep⟩ := CS.repeated_ok (V := V) hb hwf m
  refine ⟨_, hrep l hl, rfl, ?_⟩
  intro j hj q hq hf
  simp only [hm] at hj
  obtain ⟨hwr, hnode, hmv, _⟩ := repeated_col hb hwf hbr hsr hj
  obtain ⟨e1, e2, e3⟩ := split_col l hl hj
  rw [← e2] at hmv
  have hq' : ∃ p ∈ q, p.isFn = false := by
    obtain ⟨p, hp, h⟩ := hq
    refine ⟨p, hp, ?_⟩
    cases p with
    | fn f => exact absurd rfl (h f)
    | _ => rfl
  have hf' : Fns PyFn.Rearranges q := by
    rintro p hp f rfl
    exact hf f hp
  obtain ⟨h3, h4⟩ := moved_access (post := l.drop ((j + 1) * c.size)) hwr hnode hmv e3 q hq' hf'
  rw [← e1] at h3 h4
  rw [← colData_eq hl hj]
  refine ⟨h3, fun v => ?_⟩
  obtain ⟨sub', h5, h6, h7⟩ := h4 v
  have hl' : (l.take (j * c.size) ++ sub' ++ l.drop ((j + 1) * c.size)).length = c.size * m := by
    rw [← hl]
    conv_rhs => rw [e1]
    simp only [List.length_append, h5, e3]
  have hcol : colData (l.take (j * c.size) ++ sub' ++ l.drop ((j + 1) * c.size)) c.size j = sub' := by
    rw [colData, List.append_assoc, List.drop_append_of_le_length (by omega), List.drop_of_length_le (by omega),
      List.nil_append, List.take_append_of_le_length (by omega), List.take_of_length_le (by omega)]
  refine ⟨_, sub', ⟨.dense c.size m, l.take (j * c.size) ++ sub' ++ l.drop ((j + 1) * c.size)⟩, _, h6, ?_,
    ⟨Sparsity.dense_canon _ _, ?_⟩, rfl, hrep _ hl', rfl, ?_, ?_⟩
  · have h7' : (⟨cr, l, []⟩ : Obj V).setitem ([.str "t"] ++ .int j :: q) v = _ := h7
    simp only [Prefixer.setitem]
    rw [h7']
  · simpa [Sparsity.dense, Sparsity.positions_length] using hl'
  · rw [← colData_eq hl' hj, hcol]
  · intro i hi j' hj' hne
    rw [SMat.dense_at' hl' hi hj', SMat.dense_at' hl hi hj', List.getD_eq_getElem?_getD, List.getD_eq_getElem?_getD]
    congr 1
    conv_rhs => rw [e1]
    rcases Nat.lt_or_ge j' j with h | h
    · have : (j' + 1) * c.size ≤ j * c.size := Nat.mul_le_mul_right _ h
      rw [Nat.add_mul, Nat.one_mul] at this
      rw [List.append_assoc, List.append_assoc, List.getElem?_append_left (by omega), List.getElem?_append_left (by omega)]
    · have : (j + 1) * c.size ≤ j' * c.size := Nat.mul_le_mul_right _ (by omega)
      rw [Nat.add_mul, Nat.one_mul] at this
      have h8 : (l.take (j * c.size) ++ sub').length = j * c.size + c.size := by rw [List.length_append]; omega
      have h9 : (l.take (j * c.size) ++ colData l c.size j).length = j * c.size + c.size := by rw [List.length_append]; omega
      rw [List.getElem?_append_right (by omega), List.getElem?_append_right (by omega), h8, h9]

/-- **C50** (whole columns): with only a column number the view reads the column. -/
theorem C50_column [Zero V] [Add V] [Sub V] (s : Struct) (hwf : WFs s.entries s.order) (hne : ∃ d p, IsLeaf s.entries d p) :
    ∃ c, CS.ofStruct s = .ok c ∧ ∀ (a : SMat V), a.WF → a.sp = .dense c.size a.sp.cols →
      ∃ view, c.repeated a = .ok view ∧ ∀ j < a.sp.cols, view.getitem [.int j] = .ok (.leaf (a.column j)) := by
  obtain ⟨c, ls, h1, rfl, hb⟩ := ofStruct_built hwf
  refine ⟨c, h1, ?_⟩
  rintro ⟨sp, l⟩ hw hsp
  simp only at hsp
  obtain ⟨m, hm⟩ : ∃ m, sp.cols = m := ⟨_, rfl⟩
  rw [hm] at hsp
  subst hsp
  have hl : l.length = c.size * m := by
    have := hw.2
    simpa [Sparsity.dense, Sparsity.positions_length] using this
  obtain ⟨cr, lr, hbr, hsr, hrep⟩ := CS.repeated_ok (V := V) hb hwf m
  refine ⟨_, hrep l hl, ?_⟩
  intro j hj
  simp only [hm] at hj
  obtain ⟨hwr, hnode, hmv, hpos⟩ := repeated_col hb hwf hbr hsr hj
  have hpos := hpos hne
  obtain ⟨d, p, hd⟩ := hne
  have hsz : cr.size = c.size * m := by
    rw [hbr.size_eq hwr, hsr, hb.size_eq hwf]
    simp [countAll, Entry.count, Nat.mul_comm]
  show (⟨cr, l, []⟩ : Obj V).getitem ([Key.str "t", Key.int j].map .ofKey) = _
  obtain ⟨i, h3, h4, _, _, _, h5⟩ := getitem_plain hbr hwr (master := l) (by omega) (.node hnode hd) (by intro p hp; cases hp)
  rw [hpos] at h3
  cases h3
  rw [h5, SMat.column]
  congr 3
  · rw [← hb.size_eq hwf]; rfl
  · refine Eq.trans ?_ (colData_eq hl hj)
    apply List.ext_getElem
    · rw [(split_col l hl hj).2.2]; simp [SMat.col, block]
    · intro k h6 h7
      have hk : k < c.size := by rwa [(split_col l hl hj).2.2] at h7
      have : l[j * c.size + k]? = (colData l c.size j)[k]? := by
        rw [colData, List.getElem?_take, if_pos hk, List.getElem?_drop]
      simp only [SMat.col, block, List.getElem_map, List.getElem_range, List.getD_eq_getElem?_getD]
      rw [this, List.getElem?_eq_getElem h7]
      rfl

/-- **C50** (errors): a matrix whose number of rows is not the size of the struct, and a matrix that is not dense, raise. -/
theorem C50_wrong (s : Struct) (hwf : WFs s.entries s.order) :
    ∃ c, CS.ofStruct s = .ok c ∧ ∀ (a : SMat V), (a.sp.rows ≠ c.size → c.repeated a = .error .generic) ∧
      (a.sp.rows = c.size → a.sp.nz.length ≠ a.sp.rows * a.sp.cols → c.repeated a = .error .assertion) := by
  obtain ⟨c, ls, h1, rfl, hb⟩ := ofStruct_built hwf
  refine ⟨c, h1, fun a => ⟨fun h => by rw [CS.repeated, if_pos h], fun h h2 => ?_⟩⟩
  obtain ⟨cr, lr, h3, _⟩ := ofStruct_built (s := ⟨[.nested "t" [a.sp.cols] c.struct.entries c.struct.order], [.one "t"]⟩)
    (repeated_wf hwf a.sp.cols)
  rw [CS.repeated, if_neg (by simpa using h)]
  show Except.bind (CS.ofStruct _) _ = _
  rw [h3]
  show (if ¬ a.sp.isDense = true then _ else _) = _
  rw [if_pos (by simpa [Sparsity.isDense] using h2)]

/-! ## Examples -/

/-- Transposition only rearranges. -/
example : (⟨fun t => .ok t, fun
    | .leaf i => .ok i
    | _ => .error .type⟩ : PyFn ℤ).Rearranges := by
  intro g t
  cases t <;> rfl

/-- The second repetition of the nested struct `n` of `exStruct`. -/
example : ∃ c c' off, CS.ofStruct exStruct = .ok c ∧ CS.ofStruct ⟨exNested, [.one "u", .one "P"]⟩ = .ok c' ∧
    off + c'.size ≤ c.size ∧ ∀ (pre sub post : List ℤ), pre.length = off → sub.length = c'.size →
      ((⟨c, pre ++ sub ++ post, []⟩ : Obj ℤ).prefix [.str "n", .int 1]).getitem [.str "P"] =
        (⟨c', sub, []⟩ : Obj ℤ).getitem [.str "P"] := by
  obtain ⟨c, c', off, h1, h2, h3, _, h5⟩ := C59_node (V := ℤ) exStruct exStruct_wf [.str "n", .int (1 : ℕ)] exNested
    [.one "u", .one "P"] (.top (n := "n") (dims := [2]) (by simp [exStruct]) (.cons ⟨1, by omega, rfl⟩ .nil))
  refine ⟨c, c', off, h1, h2, h3, fun pre sub post hp hs => ?_⟩
  exact (h5 pre sub post hp hs [.str "P"] ⟨_, List.mem_singleton_self _, by intro f h; cases h⟩ (by intro f h; simp at h)).1

/-- The view of a matrix with three columns. -/
example : ∃ c view, CS.ofStruct exStruct = .ok c ∧
    c.repeated (SMat.fill (.dense 17 3) fun p => (10 * p.1 + p.2 : ℤ)) = .ok view ∧
    view.getitem [.int 2, .str "n", .int 1] =
      (⟨c, (List.range 17).map fun i : ℕ => (10 * i + 2 : ℤ), []⟩ : Obj ℤ).getitem [.str "n", .int 1] := by
  obtain ⟨c, h1, h2⟩ := C50_repeated_partial (V := ℤ) exStruct exStruct_wf
  have hc : c.size = 17 := by
    obtain ⟨c', h, hs, _⟩ := C39_size exStruct exStruct_wf
    rw [h1] at h
    cases h
    rw [hs]; decide
  obtain ⟨view, h3, _, h4⟩ := h2 (SMat.fill (.dense 17 3) fun p => (10 * p.1 + p.2 : ℤ))
    ⟨Sparsity.dense_canon _ _, by simp [SMat.fill]⟩ (by rw [hc]; rfl)
  refine ⟨c, view, h1, h3, ?_⟩
  have := (h4 2 (by decide) [.str "n", .int 1] ⟨.str "n", by simp, by intro f h; cases h⟩ (by intro f h; simp at h)).1
  rw [hc] at this
  exact this

/-- `s.prefix['n'][1, 'u']` is `s['n', 1, 'u']`, for reading and writing. -/
example (o : Obj ℤ) : (o.prefix [.str "n"]).getitem [.int 1, .str "u"] = o.getitem [.str "n", .int 1, .str "u"] ∧
    ((o.prefix [.str "n"]).setitem [.int 1, .str "u"] (.num 3)).1 = (o.setitem [.str "n", .int 1, .str "u"] (.num 3)).1 :=
  ⟨(C59_concat o [.str "n"] [.int 1, .str "u"] (.num 3)).1, congrArg Prod.fst (C59_concat o [.str "n"] [.int 1, .str "u"] (.num 3)).2.2.2⟩

/-- A column of the view of a matrix with three columns; matrices with 16 rows, and sparse matrices, are rejected. -/
example : ∃ c view, CS.ofStruct exStruct = .ok c ∧
    c.repeated (SMat.fill (.dense 17 3) fun p => (10 * p.1 + p.2 : ℤ)) = .ok view ∧
    view.getitem [.int 2] = .ok (.leaf ((SMat.fill (.dense 17 3) fun p => (10 * p.1 + p.2 : ℤ)).column 2)) ∧
    c.repeated (SMat.fill (.dense 16 3) fun p => (10 * p.1 + p.2 : ℤ)) = .error .generic ∧
    c.repeated (SMat.fill (.upper 17) fun p => (10 * p.1 + p.2 : ℤ)) = .error .assertion := by
  obtain ⟨c, h1, h2⟩ := C50_column (V := ℤ) exStruct exStruct_wf
    ⟨[.str "x"], ⟨.dense 2 1, false, none, none⟩, .prim (dims := []) (by simp [exStruct]) .nil⟩
  have hc : c.size = 17 := by
    obtain ⟨c', h, hs, _⟩ := C39_size exStruct exStruct_wf
    rw [h1] at h
    cases h
    rw [hs]; decide
  obtain ⟨c', h3, h4⟩ := C50_wrong (V := ℤ) exStruct exStruct_wf
  rw [h1] at h3
  cases h3
  obtain ⟨view, h5, h6⟩ := h2 (SMat.fill (.dense 17 3) fun p => (10 * p.1 + p.2 : ℤ))
    ⟨Sparsity.dense_canon _ _, by simp [SMat.fill]⟩ (by rw [hc]; rfl)
  exact ⟨c, view, h1, h5, h6 2 (by decide), (h4 _).1 (by rw [hc]; decide), (h4 _).2 (by rw [hc]; rfl) (by decide +kernel)⟩

end CE.St
