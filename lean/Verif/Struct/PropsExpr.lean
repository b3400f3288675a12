import Verif.Struct.LemExpr
import Verif.Struct.PropsDefine

/-! # Structs made from (nested lists of) expressions (C52, C58) -/

namespace CE.St

variable {V : Type}

/-! ## Rectangular nested lists -/

/-- A nested list of expressions with pattern `sp` whose lengths are `ds` on the levels, none of them empty. -/
inductive Grid (sp : Sparsity) : Pay V → List ℕ → Prop
  | mat {m} : m.WF → m.sp = sp → Grid sp (.mat m) []
  | list {l ds} : l ≠ [] → (∀ p ∈ l, Grid sp p ds) → Grid sp (.list l) (l.length :: ds)

theorem Grid.covers {sp : Sparsity} {pay : Pay V} {ds : List ℕ} (h : Grid sp pay ds) : pay.Covers ds := by
  induction h with
  | mat => trivial
  | @list l ds _ _ ih =>
    intro i hi
    exact ⟨l[i], List.getElem?_eq_getElem hi, ih _ (List.getElem_mem hi)⟩

theorem Grid.at {sp : Sparsity} {pay : Pay V} {ds : List ℕ} (h : Grid sp pay ds) {is : List ℕ} (hi : List.Forall₂ (· < ·) is ds) :
    ∃ m, pay.at is = some (.mat m) ∧ m.WF ∧ m.sp = sp := by
  induction h generalizing is with
  | mat hm hs => cases hi; exact ⟨_, rfl, hm, hs⟩
  | @list l ds _ _ ih =>
    cases hi with
    | @cons i _ is _ h1 h2 =>
      obtain ⟨m, hm⟩ := ih _ (List.getElem_mem h1) h2
      refine ⟨m, ?_, hm.2⟩
      rw [Pay.at]
      show (l[i]?).bind _ = _
      rw [List.getElem?_eq_getElem h1]
      exact hm.1

/-- The lengths of the list, of its first element, and so on, and the expression found in the end. -/
inductive Heads : Pay V → List ℕ → SMat V → Prop
  | mat (m) : Heads (.mat m) [] m
  | list {p l ds m} : Heads p ds m → Heads (.list (p :: l)) ((p :: l).length :: ds) m

theorem Grid.heads {sp : Sparsity} {pay : Pay V} {ds : List ℕ} (h : Grid sp pay ds) : ∃ m, m.sp = sp ∧ Heads pay ds m := by
  induction h with
  | @mat m hm hs => exact ⟨m, hs, .mat m⟩
  | @list l ds hl _ ih =>
    cases l with
    | nil => exact absurd rfl hl
    | cons p l =>
      obtain ⟨m, hm, hr⟩ := ih p List.mem_cons_self
      exact ⟨m, hm, .list hr⟩

theorem Heads.primitive {m : SMat V} {pay : Pay V} {ds : List ℕ} (h : Heads pay ds m) (r : List ℕ) :
    getPrimitive pay r = (some (.mat m), r ++ ds) := by
  induction h generalizing r with
  | mat m => rw [getPrimitive, List.append_nil] <;> (intros; contradiction)
  | list _ ih => rw [getPrimitive, ih]; simp

/-- **C58** (definition): `entry(name, expr=L)` has as repeat counts the lengths of `L`, of its first element and so on, and the
pattern of the first expression. -/
theorem C58_heads (n : String) (pay : Pay V) (ds : List ℕ) (m : SMat V) (h : Heads pay ds m) :
    newEntry { name := n, expr := some pay } = .ok ⟨.prim n ds ⟨m.sp, false, none, none⟩, none, some pay⟩ := by
  have hp : pay ≠ .none := by rintro rfl; cases h
  have he : exprStep (some pay) [] (.dense 1 1) = .ok (ds, m.sp) := by
    rw [exprStep]
    simp only [h.primitive, List.nil_append]
  unfold newEntry
  simp only [ne_eq, not_true_eq_false, if_false, EntryArgs.conflict, Option.isSome_none, Option.isSome_some, Bool.false_and,
    Bool.and_false, Bool.or_false, Bool.false_or, Bool.true_and, Bool.and_true, Bool.false_eq_true, shapeSp, ssStep, symStep]
  show Except.bind (exprStep (some pay) ([] : List ℕ) (.dense 1 1)) _ = _
  rw [he]
  cases pay <;> first | rfl | exact absurd rfl hp

/-- **C58** (definition): `entry(name, expr=L)` for a rectangular nested list has the lengths of the lists as repeat counts,
and the pattern of the expressions. -/
theorem C58_entry (n : String) (pay : Pay V) (ds : List ℕ) (sp : Sparsity) (h : Grid sp pay ds) :
    newEntry { name := n, expr := some pay } = .ok ⟨.prim n ds ⟨sp, false, none, none⟩, none, some pay⟩ := by
  obtain ⟨m, rfl, hr⟩ := h.heads
  exact C58_heads n pay ds m hr

/-! ## Reading back a nested list -/

mutual
/-- What a value read from a struct is as a payload. -/
def Tree.toPay : Tree (SMat V) → Pay V
  | .leaf m => .mat m
  | .list l => .list (toPays l)
  | .dict l => .dict (toItems l)
def toPays : List (Tree (SMat V)) → List (Pay V)
  | [] => []
  | t :: l => t.toPay :: toPays l
def toItems : List (String × Tree (SMat V)) → List (String × Pay V)
  | [] => []
  | t :: l => (t.1, t.2.toPay) :: toItems l
end

theorem toPays_eq (l : List (Tree (SMat V))) : toPays l = l.map Tree.toPay := by
  induction l with
  | nil => rw [toPays]; rfl
  | cons t l ih => rw [toPays, ih]; rfl

theorem toItems_eq (l : List (String × Tree (SMat V))) : toItems l = l.map fun t => (t.1, t.2.toPay) := by
  induction l with
  | nil => rw [toItems]; rfl
  | cons t l ih => rw [toItems, ih]; rfl

/-- The expression for a tuple of repeat indices. -/
def Pay.matAt (pay : Pay V) (is : List ℕ) : SMat V :=
  match pay.at is with
  | some (.mat m) => m
  | _ => ⟨.dense 0 0, []⟩

theorem Pay.matAt_eq {pay : Pay V} {is : List ℕ} {m : SMat V} (h : pay.at is = some (.mat m)) : pay.matAt is = m := by
  rw [Pay.matAt, h]

theorem Grid.nest {sp : Sparsity} {pay : Pay V} {ds : List ℕ} (h : Grid sp pay ds) :
    (nest ds fun is => pay.matAt is).toPay = pay := by
  induction h with
  | mat => rw [St.nest, Tree.toPay]; rfl
  | @list l ds _ _ ih =>
    rw [St.nest, Tree.toPay, toPays_eq, List.map_map]
    congr 1
    apply List.ext_getElem
    · simp
    · intro i h1 h2
      rw [List.getElem_map, List.getElem_range]
      have : (fun is => (Pay.list l).matAt (i :: is)) = fun is => (l[i]).matAt is := by
        funext is
        have : (Pay.list l).at (i :: is) = (l[i]).at is := by
          rw [Pay.at]
          show (l[i]?).bind _ = _
          rw [List.getElem?_eq_getElem h2]
          rfl
        rw [Pay.matAt, this]
        rfl
      show Tree.toPay (St.nest ds fun is => (Pay.list l).matAt (i :: is)) = _
      rw [this]
      exact ih _ (List.getElem_mem h2)

/-! ## `struct_MX` -/

/-- Storing expressions for distinct repetitions stores them all and changes nothing else. -/
theorem VObj.setAll_assign {c : CS} {ls} (hb : Built c ls) (hwf : WFs c.struct.entries c.struct.order) :
    ∀ (ws : List (CIdx × SMat V)) {o : VObj V}, VReach c o → (ws.map Prod.fst).Nodup →
      (∀ w ∈ ws, w.1 ∈ tops c.struct.entries c.struct.order ∧ (∃ p, IsPart c.struct.entries w.1 p w.2.sp) ∧ w.2.WF) →
      ∃ o', o.setAll (ws.map fun w => (w.1.map .ofKey, .mat w.2)) = (.ok (), o') ∧ VReach c o' ∧
        (∀ w ∈ ws, o'.expr w.1 = some w.2) ∧
        ∀ t ∈ tops c.struct.entries c.struct.order, t ∉ ws.map Prod.fst → o'.expr t = o.expr t
  | [], o, ho, _, _ => ⟨o, rfl, ho, by simp, fun _ _ _ => rfl⟩
  | w :: ws, o, ho, hnd, h => by
    rw [List.map_cons, List.nodup_cons] at hnd
    obtain ⟨ht, ⟨p, hp⟩, hm⟩ := h w List.mem_cons_self
    obtain ⟨h1, h2⟩ := C52_assign hb hwf ho w.1 (by rw [traverseCanonicalIndex_one]; exact ht) w.2 hp
    rw [traverseCanonicalIndex_one] at h2
    have hr : VReach c (o.setitem (w.1.map .ofKey) (.mat w.2)).2 := .set _ _ ho (by rintro m ⟨⟩; exact hm)
    obtain ⟨o', h3, h4, h5, h6⟩ := VObj.setAll_assign hb hwf ws hr hnd.2 fun v hv => h v (List.mem_cons_of_mem _ hv)
    refine ⟨o', ?_, h4, ?_, ?_⟩
    · rw [List.map_cons, VObj.setAll]
      generalize o.setitem (w.1.map .ofKey) (.mat w.2) = x at h1 h3
      obtain ⟨r, x⟩ := x
      simp only at h1
      subst h1
      exact h3
    · intro v hv
      rcases List.mem_cons.1 hv with rfl | hv
      · rw [h6 _ ht hnd.1, h2 _ ht, if_pos rfl]
      · exact h5 v hv
    · intro t ht' hn
      rw [List.map_cons, List.mem_cons, not_or] at hn
      rw [h6 t ht' hn.2, h2 t ht', if_neg hn.1]

theorem Grid.pos {sp : Sparsity} {pay : Pay V} {ds : List ℕ} (h : Grid sp pay ds) : ∃ is, List.Forall₂ (· < ·) is ds := by
  induction h with
  | mat => exact ⟨[], .nil⟩
  | @list l ds hl _ ih =>
    cases l with
    | nil => exact absurd rfl hl
    | cons p l =>
      obtain ⟨is, h⟩ := ih p List.mem_cons_self
      exact ⟨0 :: is, .cons (by simp) h⟩

theorem Grid.canon {sp : Sparsity} {pay : Pay V} {ds : List ℕ} (h : Grid sp pay ds) : sp.Canon := by
  obtain ⟨is, hi⟩ := h.pos
  obtain ⟨m, _, h1, rfl⟩ := h.at hi
  exact h1.1

/-- `d` is `entry(name, expr=pay)` for a rectangular nested list of expressions with pattern `sp`. -/
def IsExprDef (d : EntryDef V) (pay : Pay V) (ds : List ℕ) (sp : Sparsity) : Prop :=
  Grid sp pay ds ∧ newEntry { name := d.entry.name, expr := some pay } = .ok d

/-- `d` is a definition with the expressions `pay`, whose lists are at least as long as the repeat counts `ds`; the expressions
for the repetitions have the pattern `sp`. -/
structure Stores (d : EntryDef V) (pay : Pay V) (ds : List ℕ) (sp : Sparsity) : Prop where
  eq : d = ⟨.prim d.entry.name ds ⟨sp, false, none, none⟩, none, some pay⟩
  canon : sp.Canon
  covers : pay.Covers ds
  at' : ∀ is, List.Forall₂ (· < ·) is ds → ∃ m, pay.at is = some (.mat m) ∧ m.WF ∧ m.sp = sp

theorem IsExprDef.stores {d : EntryDef V} {pay : Pay V} {ds : List ℕ} {sp : Sparsity} (h : IsExprDef d pay ds sp) :
    Stores d pay ds sp where
  eq := by
    have h2 := h.2
    rw [C58_entry _ _ _ _ h.1] at h2
    exact (Except.ok.inj h2).symm
  canon := h.1.canon
  covers := h.1.covers
  at' := fun _ hi => h.1.at hi

theorem defs_entries (arg : List (DefItem V)) :
    (arg.map DefItem.item).flatMap Item.entries = (arg.flatMap DefItem.defs).map EntryDef.entry := by
  induction arg with
  | nil => rfl
  | cons a arg ih =>
    rw [List.map_cons, List.flatMap_cons, List.flatMap_cons, List.map_append, ih]
    cases a <;> rfl

/-- A list of definitions with distinct names, each with the expressions it needs. -/
structure ExprDefs (arg : List (DefItem V)) (order : Option (List OrderItem)) : Prop where
  nodup : ((arg.flatMap DefItem.defs).map fun d => d.entry.name).Nodup
  order : ∀ o, order = some o → (∀ ds, DefItem.tup ds ∉ arg) ∧
    (o.flatMap OrderItem.names).Perm ((arg.flatMap DefItem.defs).map fun d => d.entry.name)
  expr : ∀ d ∈ arg.flatMap DefItem.defs, ∃ pay ds sp, Stores d pay ds sp

theorem ExprDefs.struct {arg : List (DefItem V)} {order : Option (List OrderItem)} (h : ExprDefs arg order) :
    ∃ c ls, CS.ofList (arg.map DefItem.item) order = .ok c ∧
      c.struct = ⟨(arg.flatMap DefItem.defs).map EntryDef.entry, order.getD ((arg.map DefItem.item).map Item.orderItem)⟩ ∧
      WFs c.struct.entries c.struct.order ∧ Built c ls ∧ CS.ofStruct c.struct = .ok c := by
  have hx : ∀ e ∈ (arg.flatMap DefItem.defs).map EntryDef.entry, ∃ n ds sp, e = .prim n ds ⟨sp, false, none, none⟩ ∧ sp.Canon := by
    intro e he
    obtain ⟨d, hd, rfl⟩ := List.mem_map.1 he
    obtain ⟨pay, ds, sp, hx⟩ := h.expr d hd
    exact ⟨d.entry.name, ds, sp, by rw [hx.eq]; rfl, hx.canon⟩
  have := ofList_built (arg.map DefItem.item) order
  rw [defs_entries, List.map_map] at this
  refine this h.nodup ?_ ?_ ?_
  · intro o ho
    refine ⟨?_, (h.order o ho).2⟩
    intro es hes
    obtain ⟨i, hi, hie⟩ := List.mem_map.1 hes
    cases i with
    | one e => cases hie
    | tup ds => exact (h.order o ho).1 ds hi
  · intro n d p hp
    obtain ⟨n', ds, sp, h1, h2⟩ := hx _ hp
    cases h1
    exact h2
  · intro n d es o hp
    obtain ⟨n', ds, sp, h1, h2⟩ := hx _ hp
    cases h1

theorem VObj.storeExprs_eq {c : CS} {ls} (hb : Built c ls) (hwf : WFs c.struct.entries c.struct.order) :
    ∀ (ds : List (EntryDef V)) {o : VObj V}, VReach c o → (ds.map fun d => d.entry.name).Nodup →
      (∀ d ∈ ds, d.entry ∈ c.struct.entries ∧ ∃ pay dims sp, Stores d pay dims sp) →
      ∃ o', VObj.storeExprs ds o = .ok o' ∧ VReach c o' ∧
        (∀ d ∈ ds, ∀ pay dims sp, Stores d pay dims sp → ∀ is, List.Forall₂ (· < ·) is dims →
          o'.expr (.str d.entry.name :: natKeys is) = some (pay.matAt is)) ∧
        ∀ e ∈ c.struct.entries, e.name ∉ (ds.map fun d => d.entry.name) → ∀ ks, InDims ks e.dims →
          o'.expr (.str e.name :: ks) = o.expr (.str e.name :: ks)
  | [], o, ho, _, _ => ⟨o, rfl, ho, by simp, fun _ _ _ _ _ => rfl⟩
  | d :: ds, o, ho, hnd, h => by
    rw [List.map_cons, List.nodup_cons] at hnd
    obtain ⟨hd, pay, dims, sp, hx⟩ := h d List.mem_cons_self
    have hg := ho.good hwf
    have heq := hx.eq
    have hdims : d.entry.dims = dims := by rw [heq]; rfl
    let ws : List (CIdx × SMat V) := (tuples dims).map fun is => (.str d.entry.name :: natKeys is, pay.matAt is)
    have hset : o.setitem [.str d.entry.name] (d.expr.getD .none) = o.setAll (ws.map fun w => (w.1.map .ofKey, .mat w.2)) := by
      have hpay : d.expr.getD .none = pay := by rw [heq]; rfl
      rw [hpay, o.setitem_dist (by rw [hg.cs]; exact hwf) (by rw [hg.cs]; exact hd) pay (by rw [hdims]; exact hx.covers), hdims,
        List.map_map]
      congr 1
      apply List.map_congr_left
      intro is his
      obtain ⟨m, hm, _⟩ := hx.at' _ (mem_tuples.1 his)
      simp only [Function.comp, Pay.matAt_eq hm, hm]
      rfl
    obtain ⟨o1, h1, h2, h3, h4⟩ := VObj.setAll_assign hb hwf ws ho (by
        rw [List.map_map]
        exact (tuples_nodup dims).map fun a b hab => natKeys_inj (List.cons.inj hab).2) (by
        intro w hw
        obtain ⟨is, his, rfl⟩ := List.mem_map.1 hw
        obtain ⟨m, hm, hwfm, hsp⟩ := hx.at' _ (mem_tuples.1 his)
        have hin : InDims (natKeys is) d.entry.dims := by rw [hdims]; exact natKeys_inDims (mem_tuples.1 his)
        refine ⟨(mem_tops hwf).2 ⟨d.entry, hd, _, hin, rfl⟩, ⟨some ⟨sp, false, none, none⟩, ?_⟩, ?_⟩
        · simp only [Pay.matAt_eq hm, hsp]
          refine .leaf (p := ⟨sp, false, none, none⟩) (.prim (dims := dims) ?_ ?_)
          · rw [heq] at hd; exact hd
          · rw [← hdims]; exact hin
        · simp only [Pay.matAt_eq hm]; exact hwfm)
    obtain ⟨o', h5, h6, h7, h8⟩ := VObj.storeExprs_eq hb hwf ds h2 hnd.2 fun v hv => h v (List.mem_cons_of_mem _ hv)
    have hlast : ∀ is, List.Forall₂ (· < ·) is dims → o'.expr (.str d.entry.name :: natKeys is) = some (pay.matAt is) := by
      intro is his
      rw [h8 _ hd hnd.1 _ (by rw [hdims]; exact natKeys_inDims his)]
      exact h3 (_, _) (List.mem_map.2 ⟨is, mem_tuples.2 his, rfl⟩)
    refine ⟨o', ?_, h6, ?_, ?_⟩
    · rw [VObj.storeExprs, hset, h1]
      exact h5
    · intro d' hd' pay' dims' sp' hx'
      rcases List.mem_cons.1 hd' with rfl | hd'
      · have e := heq.symm.trans hx'.eq
        simp only [EntryDef.mk.injEq, Entry.prim.injEq, Option.some.injEq, true_and] at e
        obtain ⟨⟨rfl, _⟩, rfl⟩ := e
        exact hlast
      · exact h7 d' hd' pay' dims' sp' hx'
    · intro e he hn ks hks
      rw [List.map_cons, List.mem_cons, not_or] at hn
      rw [h8 e he hn.2 ks hks]
      refine h4 _ ((mem_tops hwf).2 ⟨e, he, ks, hks, rfl⟩) ?_
      intro hmem
      obtain ⟨w, hw, hw'⟩ := List.mem_map.1 hmem
      obtain ⟨is, _, rfl⟩ := List.mem_map.1 hw
      have := (List.cons.inj hw').1
      injection this with this
      exact hn.1 this.symm

mutual
/-- All elements of a nested list of expressions, in order. -/
def Pay.flat : Pay V → List V
  | .mat m => m.data
  | .list l => flatAll l
  | _ => []
def flatAll : List (Pay V) → List V
  | [] => []
  | p :: l => p.flat ++ flatAll l
end

theorem flatAll_eq (l : List (Pay V)) : flatAll l = l.flatMap Pay.flat := by
  induction l with
  | nil => rw [flatAll]; rfl
  | cons p l ih => rw [flatAll, ih]; rfl

theorem flatMap_range_getElem {α β : Type} (l : List α) (f : ℕ → List β) (g : α → List β)
    (h : ∀ (i : ℕ) (hi : i < l.length), f i = g l[i]) : (List.range l.length).flatMap f = l.flatMap g := by
  have : (List.range l.length).map f = l.map g := by
    apply List.ext_getElem
    · simp
    · intro i h1 h2
      simp only [List.getElem_map, List.getElem_range]
      exact h i (by simpa using h2)
  rw [List.flatMap_def, this, ← List.flatMap_def]

theorem Grid.flat {sp : Sparsity} {pay : Pay V} {ds : List ℕ} (h : Grid sp pay ds) :
    (tuples ds).flatMap (fun is => (pay.matAt is).data) = pay.flat := by
  induction h with
  | @mat m _ _ => rw [tuples, Pay.flat]; simp [Pay.matAt, Pay.at]
  | @list l ds _ _ ih =>
    rw [tuples, Pay.flat, flatAll_eq, List.flatMap_assoc]
    apply flatMap_range_getElem
    intro i hi
    rw [flatMap_map', ← ih _ (List.getElem_mem hi)]
    apply List.flatMap_congr
    intro is _
    congr 1
    have : (Pay.list l).at (i :: is) = (l[i]).at is := by
      rw [Pay.at]
      show (l[i]?).bind _ = _
      rw [List.getElem?_eq_getElem hi]
      rfl
    rw [Pay.matAt, this]
    rfl

theorem inDims_natKeys {ks : CIdx} {ds : List ℕ} (h : InDims ks ds) : ∃ is, List.Forall₂ (· < ·) is ds ∧ ks = natKeys is := by
  induction h with
  | nil => exact ⟨[], .nil, rfl⟩
  | cons h _ ih =>
    obtain ⟨i, hi, rfl⟩ := h
    obtain ⟨is, his, rfl⟩ := ih
    exact ⟨i :: is, .cons hi his, rfl⟩

/-- The order of the elements if the order consists of names. -/
theorem tops_names {es : List Entry} {ns : List Entry} (hn : (es.map Entry.name).Nodup) (h : ∀ e ∈ ns, e ∈ es) :
    tops es (ns.map fun e => .one e.name) = ns.flatMap fun e => (tuples e.dims).map fun is => .str e.name :: natKeys is := by
  rw [tops_eq, flatMap_map']
  apply List.flatMap_congr
  intro e he
  rw [itemTop, dictEntry_of_mem hn (h e he), Option.map_some, Option.getD_some, listindices_tuples, List.map_map]
  rfl

/-- **C52**, **C58** (`struct_MX`): the constructor succeeds and stores, for every repetition, the expression of the nested list. -/
theorem C52_assemble (arg : List (DefItem V)) (order : Option (List OrderItem)) (h : ExprDefs arg order) :
    ∃ o c, newVeccat arg order = .ok o ∧ CS.ofList (arg.map DefItem.item) order = .ok c ∧ VReach c o ∧
      (∀ d ∈ arg.flatMap DefItem.defs, ∀ pay ds sp, Stores d pay ds sp → ∀ is, List.Forall₂ (· < ·) is ds →
        o.expr (.str d.entry.name :: natKeys is) = some (pay.matAt is)) ∧
      (∀ t ∈ c.struct.traverseCanonicalIndex 1, ∃ m, o.expr t = some m) := by
  obtain ⟨c, ls, h1, h2, hwf, hb, _⟩ := h.struct
  obtain ⟨o, k1, k2, k3, _⟩ := VObj.storeExprs_eq hb hwf (arg.flatMap DefItem.defs) (o := .empty c) .new h.nodup
    (fun d hd => ⟨by rw [h2]; exact List.mem_map.2 ⟨d, hd, rfl⟩, h.expr d hd⟩)
  refine ⟨o, c, ?_, h1, k2, k3, ?_⟩
  · unfold newVeccat
    show Except.bind _ _ = _
    rw [h1]
    show (if _ then _ else _) = _
    rw [if_neg, k1]
    intro hany
    obtain ⟨d, hd, hn⟩ := List.any_eq_true.1 hany
    obtain ⟨pay, ds, sp, hx⟩ := h.expr d hd
    rw [hx.eq] at hn
    exact absurd hn (by simp)
  · intro t ht
    rw [traverseCanonicalIndex_one, mem_tops hwf] at ht
    obtain ⟨e, he, ks, hks, rfl⟩ := ht
    rw [h2] at he
    obtain ⟨d, hd, rfl⟩ := List.mem_map.1 he
    obtain ⟨pay, ds, sp, hx⟩ := h.expr d hd
    have hdims : d.entry.dims = ds := by rw [hx.eq]; rfl
    rw [hdims] at hks
    obtain ⟨is, his, rfl⟩ := inDims_natKeys hks
    exact ⟨_, k3 d hd pay ds sp hx is his⟩

/-- **C52**, **C58** (reading `struct_MX`): `s[name]` is the expression, or the nested list of expressions, of the definition. -/
theorem C58_veccat_read_partial [Zero V] [Add V] [Sub V] (arg : List (DefItem V)) (order : Option (List OrderItem)) (h : ExprDefs arg order) :
    ∃ o, newVeccat arg order = .ok o ∧ ∀ d ∈ arg.flatMap DefItem.defs, ∀ pay ds sp, IsExprDef d pay ds sp →
      ∃ t, o.getitem [.str d.entry.name] = .ok t ∧ t.toPay = pay := by
  obtain ⟨o, c, h1, h2, h3, h4, h5⟩ := C52_assemble arg order h
  obtain ⟨c', ls, k1, k2, hwf, hb, _⟩ := h.struct
  rw [h2] at k1
  cases k1
  refine ⟨o, h1, ?_⟩
  intro d hd pay ds sp hg'
  have hx := hg'.stores
  obtain ⟨l, g1, g2, g3⟩ := (C52_cat hb hwf h3).1 h5
  have hg := h3.good hwf
  have hdims : d.entry.dims = ds := by rw [hx.eq]; rfl
  have he : d.entry ∈ c.struct.entries := by rw [k2]; exact List.mem_map.2 ⟨d, hd, rfl⟩
  refine ⟨nest ds fun is => pay.matAt is, ?_, hg'.1.nest⟩
  rw [VObj.getitem, g1, hg.cs]
  refine getitem_nest (⟨c, l, []⟩ : Obj V) hwf (a := []) .root he [] [] hdims .nil _ ?_
  intro is his
  obtain ⟨m, hm, hmw, hsp⟩ := hx.at' _ his
  have hin : InDims (natKeys is) d.entry.dims := by rw [hdims]; exact natKeys_inDims his
  have := C52_read hb hwf h3 h5 (.str d.entry.name :: natKeys is)
    (by rw [traverseCanonicalIndex_one]; exact (mem_tops hwf).2 ⟨_, he, _, hin, rfl⟩) (p := some ⟨sp, false, none, none⟩) (sp := sp)
    (by
      refine .leaf (p := ⟨sp, false, none, none⟩) (.prim (dims := ds) ?_ ?_)
      · rw [hx.eq] at he; exact he
      · rw [← hdims]; exact hin) (by rintro q ⟨⟩; rfl) _ (h4 d hd pay ds sp hx is his)
  rw [VObj.getitem, g1, hg.cs] at this
  exact this

theorem veccat_cat (arg : List (DefItem V)) (order : Option (List OrderItem)) (h : ExprDefs arg order) (E : List (EntryDef V))
    (hE : E.Perm (arg.flatMap DefItem.defs))
    (ho : order.getD ((arg.map DefItem.item).map Item.orderItem) = E.map fun d => .one d.entry.name) :
    ∃ o, newVeccat arg order = .ok o ∧
      o.master = .ok (E.flatMap fun d => (tuples d.entry.dims).flatMap fun is => ((d.expr.getD .none).matAt is).data) := by
  obtain ⟨o, c, h1, h2, h3, h4, h5⟩ := C52_assemble arg order h
  obtain ⟨c', ls, k1, k2, hwf, hb, _⟩ := h.struct
  rw [h2] at k1
  cases k1
  refine ⟨o, h1, ?_⟩
  obtain ⟨l, g1, g2, g3⟩ := (C52_cat hb hwf h3).1 h5
  rw [g1, g3, traverseCanonicalIndex_one, k2]
  have hmap : (E.map fun d : EntryDef V => OrderItem.one d.entry.name) = (E.map EntryDef.entry).map fun e => .one e.name := by
    rw [List.map_map]; rfl
  rw [ho, hmap, tops_names (by rw [List.map_map]; exact h.nodup) (by
    intro e he
    obtain ⟨d, hd, rfl⟩ := List.mem_map.1 he
    exact List.mem_map.2 ⟨d, hE.mem_iff.1 hd, rfl⟩), List.flatMap_assoc, flatMap_map']
  congr 1
  apply List.flatMap_congr
  intro d hd
  obtain ⟨pay, ds, sp, hx⟩ := h.expr d (hE.mem_iff.1 hd)
  have hdims : d.entry.dims = ds := by rw [hx.eq]; rfl
  have hpay : d.expr.getD .none = pay := by rw [hx.eq]; rfl
  rw [flatMap_map', hdims, hpay]
  apply List.flatMap_congr
  intro is his
  rw [h4 d (hE.mem_iff.1 hd) pay ds sp hx is (mem_tuples.1 his)]
  rfl

/-- **C52**, **C58** (`.cat` of `struct_MX`): if the order is a sequence of names, `.cat` consists of the elements of the nested
lists of expressions one after the other in this order (for groups see `C52_cat` and `C52_assemble`). -/
theorem C58_veccat_cat (arg : List (DefItem V)) (order : Option (List OrderItem)) (h : ExprDefs arg order) (E : List (EntryDef V))
    (hE : E.Perm (arg.flatMap DefItem.defs)) (hx : ∀ d ∈ arg.flatMap DefItem.defs, ∃ pay ds sp, IsExprDef d pay ds sp)
    (ho : order.getD ((arg.map DefItem.item).map Item.orderItem) = E.map fun d => .one d.entry.name) :
    ∃ o, newVeccat arg order = .ok o ∧ o.master = .ok (E.flatMap fun d => (d.expr.getD .none).flat) := by
  obtain ⟨o, h1, h2⟩ := veccat_cat arg order h E hE ho
  refine ⟨o, h1, ?_⟩
  rw [h2]
  congr 1
  apply List.flatMap_congr
  intro d hd
  obtain ⟨pay, ds, sp, hg⟩ := hx d (hE.mem_iff.1 hd)
  have hdims : d.entry.dims = ds := by rw [hg.stores.eq]; rfl
  have hpay : d.expr.getD .none = pay := by rw [hg.stores.eq]; rfl
  rw [hdims, hpay, hg.1.flat]

/-! ## `struct_SX` -/

section
variable [Zero V]

theorem storeExprs_assignKeys (items : List (String × Pay V)) :
    ∀ (ds : List (EntryDef V)) (o : Obj V), (∀ d ∈ ds, dictGet items d.entry.name = some (d.expr.getD .none)) →
      storeExprs ds o = assignKeys items (ds.map fun d => d.entry.name) o
  | [], _, _ => rfl
  | d :: ds, o, h => by
    rw [storeExprs, List.map_cons, assignKeys, h d List.mem_cons_self]
    simp only
    rcases o.setitem [.str d.entry.name] (d.expr.getD .none) with ⟨_ | _, o'⟩
    · rfl
    · exact storeExprs_assignKeys items ds o' fun d hd => h d (List.mem_cons_of_mem _ hd)

/-- The dict of the expressions. -/
def exprItems (ds : List (EntryDef V)) : List (String × Pay V) := ds.map fun d => (d.entry.name, d.expr.getD .none)

/-- `struct_SX(entries)` is the struct made by `struct(d)` for the dict of the expressions. -/
theorem newSXExprs_eq (nan : V) (arg : List (DefItem V)) (h : ExprDefs arg none) :
    ∃ c, CS.ofList (arg.map DefItem.item) none = .ok c ∧
      newSXExprs nan arg = callDM nan c (.dict (exprItems (arg.flatMap DefItem.defs))) := by
  obtain ⟨c, ls, h1, h2, hwf, hb, _⟩ := h.struct
  refine ⟨c, h1, ?_⟩
  have hnames : (exprItems (arg.flatMap DefItem.defs)).map Prod.fst = (arg.flatMap DefItem.defs).map fun d => d.entry.name := by
    rw [exprItems, List.map_map]; rfl
  have hkeys : c.struct.keys = (arg.flatMap DefItem.defs).map fun d => d.entry.name := by
    rw [Struct.keys, h2]
    simp only [Option.getD_none]
    rw [default_names, defs_entries, List.map_map]
    rfl
  unfold newSXExprs
  show Except.bind _ _ = _
  rw [h1]
  show (if _ then _ else _) = _
  rw [if_neg, callDM, if_pos, hkeys]
  · apply storeExprs_assignKeys
    intro d hd
    exact dictGet_of_mem (by rw [hnames]; exact h.nodup) (List.mem_map.2 ⟨d, hd, rfl⟩)
  · rw [Bool.and_eq_true, List.all_eq_true, List.all_eq_true, hnames, hkeys]
    simp
  · intro hany
    obtain ⟨d, hd, hn⟩ := List.any_eq_true.1 hany
    obtain ⟨pay, ds, sp, hx⟩ := h.expr d hd
    rw [hx.eq] at hn
    exact absurd hn (by simp)

/-- The elements of the expression for a repetition of an entry. -/
def exprVals (ds : List (EntryDef V)) (t : CIdx) : List V :=
  match t with
  | .str n :: ks => ((ds.find? fun d => d.entry.name = n).bind fun d => d.expr.map fun pay =>
      (pay.matAt (ks.map fun k => match k with
        | .int i => i.toNat
        | .str _ => 0)).data).getD []
  | _ => []

theorem exprVals_eq {ds : List (EntryDef V)} (hn : (ds.map fun d => d.entry.name).Nodup) {d : EntryDef V} (hd : d ∈ ds)
    {pay : Pay V} (hp : d.expr = some pay) (is : List ℕ) : exprVals ds (.str d.entry.name :: natKeys is) = (pay.matAt is).data := by
  have hf : (ds.find? fun d' => d'.entry.name = d.entry.name) = some d := by
    induction ds with
    | nil => cases hd
    | cons a ds ih =>
      rw [List.map_cons, List.nodup_cons] at hn
      rcases List.mem_cons.1 hd with rfl | hd'
      · simp
      · rw [List.find?_cons_of_neg, ih hn.2 hd']
        intro h
        exact hn.1 (List.mem_map.2 ⟨d, hd', (of_decide_eq_true h).symm⟩)
  rw [exprVals, hf]
  simp only [Option.bind_some, hp, Option.map_some, Option.getD_some, natKeys, List.map_map]
  congr 2
  conv_rhs => rw [← List.map_id is]
  apply List.map_congr_left
  intro i _
  rfl

theorem exprFits {arg : List (DefItem V)} (h : ExprDefs arg none) {c : CS}
    (h2 : c.struct.entries = (arg.flatMap DefItem.defs).map EntryDef.entry) :
    DictFits c.struct (exprItems (arg.flatMap DefItem.defs)) (exprVals (arg.flatMap DefItem.defs)) := by
  intro e he
  have he' := he
  rw [h2] at he
  obtain ⟨d, hd, rfl⟩ := List.mem_map.1 he
  obtain ⟨pay, ds, sp, hx⟩ := h.expr d hd
  have hdims : d.entry.dims = ds := by rw [hx.eq]; rfl
  have hpay : d.expr = some pay := by rw [hx.eq]
  refine ⟨pay, ?_, ?_, ?_⟩
  · refine dictGet_of_mem ?_ ?_
    · rw [exprItems, List.map_map]; exact h.nodup
    · exact List.mem_map.2 ⟨d, hd, by rw [hpay]; rfl⟩
  · rw [hdims]; exact hx.covers
  · intro is his
    rw [hdims] at his
    obtain ⟨m, hm, hmw, rfl⟩ := hx.at' _ his
    refine ⟨.mat m, m.sp, m.at', hm, .plain (e := some ⟨m.sp, false, none, none⟩) ?_ ?_ (.mat m) hmw (.same rfl rfl), ?_⟩
    · refine .leaf (p := ⟨m.sp, false, none, none⟩) (.prim (dims := ds) ?_ (natKeys_inDims his))
      rw [hx.eq] at he'; exact he'
    · rintro p ⟨⟩; rfl
    · rw [exprVals_eq h.nodup hd hpay, Pay.matAt_eq hm]
      exact (congrArg SMat.data (SMat.eq_fill hmw))

/-- **C58** (`struct_SX`): the constructor succeeds; `.cat` consists of the elements of the expressions in the order of the
layout. -/
theorem C58_SX_cat (nan : V) (arg : List (DefItem V)) (h : ExprDefs arg none) :
    ∃ c master, CS.ofList (arg.map DefItem.item) none = .ok c ∧ newSXExprs nan arg = .ok ⟨c, master, []⟩ ∧
      master.length = c.size ∧ master = (c.struct.traverseCanonicalIndex 1).flatMap (exprVals (arg.flatMap DefItem.defs)) ∧
      ∀ E : List (EntryDef V), arg = E.map .one → (∀ d ∈ E, ∃ pay ds sp, IsExprDef d pay ds sp) →
        master = E.flatMap fun d => (d.expr.getD .none).flat := by
  obtain ⟨c, ls, h1, h2, hwf, hb, h3⟩ := h.struct
  obtain ⟨c', g1, g2⟩ := newSXExprs_eq nan arg h
  rw [h1] at g1
  cases g1
  obtain ⟨master, k1, k2, k3, _⟩ := C47_cat nan c.struct hwf c h3 (exprItems (arg.flatMap DefItem.defs)) (by
    intro k
    rw [h2, exprItems, List.map_map]
    simp [List.mem_map]) _ (exprFits h (by rw [h2]))
  refine ⟨c, master, h1, g2.trans k1, k2, k3, ?_⟩
  rintro E rfl hx
  have hdefs : (E.map DefItem.one).flatMap DefItem.defs = E := by
    rw [flatMap_map']; simp [DefItem.defs]
  have hn := h.nodup
  rw [hdefs] at h2 k3 hn
  rw [k3, traverseCanonicalIndex_one, h2]
  have hmap : (none : Option (List OrderItem)).getD (((E.map DefItem.one).map DefItem.item).map Item.orderItem) =
      (E.map EntryDef.entry).map fun e => .one e.name := by
    rw [Option.getD_none, List.map_map, List.map_map, List.map_map]; rfl
  simp only [hmap]
  rw [tops_names (by rw [List.map_map]; exact hn) (fun e he => he), List.flatMap_assoc, flatMap_map']
  apply List.flatMap_congr
  intro d hd
  obtain ⟨pay, ds, sp, hg⟩ := hx d hd
  have hs := hg.stores
  have hdims : d.entry.dims = ds := by rw [hs.eq]; rfl
  have hpay : d.expr = some pay := by rw [hs.eq]
  rw [flatMap_map', hdims, hpay, Option.getD_some, ← hg.1.flat]
  apply List.flatMap_congr
  intro is his
  exact exprVals_eq hn hd hpay is

omit [Zero V] in
theorem nest_congr {R : Type} {ds : List ℕ} {f g : List ℕ → R} (h : ∀ is, List.Forall₂ (· < ·) is ds → f is = g is) :
    nest ds f = nest ds g := by
  induction ds generalizing f g with
  | nil => rw [nest, nest, h [] .nil]
  | cons d ds ih =>
    rw [nest, nest]
    congr 1
    apply List.map_congr_left
    intro i hi
    exact ih fun is his => h _ (.cons (List.mem_range.1 hi) his)

/-- **C58** (reading `struct_SX`): `s[name]` is the expression, or the nested list of expressions, of the definition. -/
theorem C58_SX_read_partial [Add V] [Sub V] (nan : V) (arg : List (DefItem V)) (h : ExprDefs arg none) :
    ∃ o, newSXExprs nan arg = .ok o ∧ ∀ d ∈ arg.flatMap DefItem.defs, ∀ pay ds sp, IsExprDef d pay ds sp →
      ∃ t, o.getitem [.str d.entry.name] = .ok t ∧ t.toPay = pay := by
  obtain ⟨c, ls, h1, h2, hwf, hb, h3⟩ := h.struct
  obtain ⟨c', g1, g2⟩ := newSXExprs_eq nan arg h
  rw [h1] at g1
  cases g1
  obtain ⟨o, k1, k2⟩ := C47_read nan c.struct hwf c h3 (exprItems (arg.flatMap DefItem.defs)) (by
    intro k
    rw [h2, exprItems, List.map_map]
    simp [List.mem_map]) _ (exprFits h (by rw [h2]))
  refine ⟨o, g2.trans k1, ?_⟩
  intro d hd pay ds sp hg
  have hx := hg.stores
  have hpay : d.expr = some pay := by rw [hx.eq]
  have := k2 d.entry (by rw [h2]; exact List.mem_map.2 ⟨d, hd, rfl⟩) (by
    intro n d' p hp
    rw [hx.eq] at hp
    cases hp
    rfl)
  refine ⟨_, this, ?_⟩
  have hdims : d.entry.dims = ds := by rw [hx.eq]; rfl
  have hsp : d.entry.readSp = sp := by rw [hx.eq]; rfl
  rw [hdims, hsp]
  have hnest : nest ds (fun is => (⟨sp, exprVals (arg.flatMap DefItem.defs) (.str d.entry.name :: natKeys is)⟩ : SMat V)) =
      nest ds fun is => pay.matAt is := by
    apply nest_congr
    intro is his
    obtain ⟨m, hm, _, rfl⟩ := hx.at' is his
    rw [exprVals_eq h.nodup hd hpay, Pay.matAt_eq hm]
  rw [hnest]
  exact hg.1.nest

/-- **C58** (`struct_MX_mutable`): the new struct has the same `.cat` and reads the same as the `struct_SX`. -/
theorem C58_MX [Add V] [Sub V] (nan : V) (arg : List (DefItem V)) (h : ExprDefs arg none) :
    ∃ o o', newSXExprs nan arg = .ok o ∧ newMXExprs nan arg = .ok o' ∧ o'.master = o.master ∧ ∀ pi, o'.getitem pi = o.getitem pi := by
  obtain ⟨c, master, h1, h2, h3, _⟩ := C58_SX_cat nan arg h
  obtain ⟨c', ls, g1, g2, hwf, hb, g3⟩ := h.struct
  rw [h1] at g1
  cases g1
  obtain ⟨prio, k1, k2⟩ := buildMap_right hb hwf h3
  refine ⟨_, ⟨c, master, prio⟩, h2, ?_, rfl, fun pi => getitem_prio hb hwf h3 k2 pi⟩
  unfold newMXExprs
  show Except.bind _ _ = _
  rw [h2]
  show Except.bind (buildMap c.struct (.col master)) _ = _
  rw [k1]
  rfl

end

/-! ## Ragged lists -/

theorem M.forEach_error {σ α β : Type} (l : List α) (f : α → M σ β) (a : α) (ha : a ∈ l) (h : ∀ s, ∃ e, (f a s).1 = .error e) (s : σ) :
    ∃ e, (M.forEach l f s).1 = .error e := by
  induction l generalizing s with
  | nil => cases ha
  | cons b l ih =>
    rw [M.forEach]
    simp only [M.bind]
    generalize hx : f b s = x
    obtain ⟨r, s'⟩ := x
    cases r with
    | error e => exact ⟨e, rfl⟩
    | ok b' =>
      rcases List.mem_cons.1 ha with rfl | ha
      · obtain ⟨e, he⟩ := h s
        rw [hx] at he
        cases he
      · obtain ⟨e, he⟩ := ih ha s'
        simp only
        generalize M.forEach l f s' = y at he
        obtain ⟨r', s''⟩ := y
        simp only at he
        subst he
        exact ⟨e, rfl⟩

/-- A nested list that is too short somewhere cannot be handed out. -/
theorem goEntry_short {σ F R : Type} (d : Disp σ V F R) (leaf : Trav σ V F R) (ds : List ℕ) (inner : Bool) :
    ∀ (c : CIdx) (pay : Pay V), ¬ pay.Covers ds → ∀ s, ∃ e, (goEntry d leaf ds [] inner c pay s).1 = .error e := by
  induction ds with
  | nil => intro c pay h; exact absurd trivial h
  | cons n ds ih =>
    intro c pay h s
    rw [Pay.Covers] at h
    push_neg at h
    obtain ⟨i, hi, hq⟩ := h
    rw [goEntry_pending]
    have := M.forEach_error ((List.range n).map fun i : ℕ => (i : ℤ)) (fun i =>
        M.bind (ex (payloadUnpack pay (.int i))) fun pay' =>
          goEntry d leaf (n :: ds) [.int i] inner c pay') i (List.mem_map.2 ⟨i, List.mem_range.2 hi, rfl⟩) (by
      intro s
      cases hsub : pay.sub i with
      | none =>
        have : ∃ e, payloadUnpack pay (.int i) = .error e := by
          cases pay with
          | list l =>
            simp only [Pay.sub] at hsub
            refine ⟨.generic, ?_⟩
            rw [payloadUnpack, if_pos]
            have := List.getElem?_eq_none_iff.1 hsub
            omega
          | _ => simp [Pay.sub] at hsub
        obtain ⟨e, he⟩ := this
        rw [he]
        exact ⟨e, rfl⟩
      | some q =>
        rw [payloadUnpack_sub hsub]
        obtain ⟨e, he⟩ := ih (c ++ [.int i]) q (hq q hsub) s
        refine ⟨e, ?_⟩
        show (goEntry d leaf (n :: ds) [.int i] inner c q s).1 = _
        rw [goEntry_int, canonical_nat]
        exact he) s
    obtain ⟨e, he⟩ := this
    refine ⟨e, ?_⟩
    simp only [M.bind]
    generalize M.forEach _ _ s = y at he
    obtain ⟨r', s''⟩ := y
    simp only at he
    subst he
    rfl

theorem traverse_short {σ F R : Type} (d : Disp σ V F R) (s : Struct) (hn : (s.entries.map Entry.name).Nodup) {e : Entry}
    (he : e ∈ s.entries) (pay : Pay V) (h : ¬ pay.Covers e.dims) (st : σ) :
    (s.traverse d [.str e.name] pay st).1 = .error .generic := by
  obtain ⟨er, h1⟩ := goEntry_short d (Entry.leafTrav d e) e.dims false ([] ++ [.str e.name]) pay h st
  rw [← goStruct_entry d s.keys hn he] at h1
  rw [Struct.traverse]
  generalize goStruct d s.keys (travTable d s.entries) [.str e.name] false [] pay st = x at h1
  obtain ⟨r, st'⟩ := x
  simp only at h1
  subst h1
  rfl

theorem VObj.storeExprs_short {s : Struct} (hn : (s.entries.map Entry.name).Nodup) :
    ∀ (ds : List (EntryDef V)) (o : VObj V), o.cs.struct = s → ∀ d ∈ ds, d.entry ∈ s.entries → ¬ (d.expr.getD .none).Covers d.entry.dims →
      ∃ e, VObj.storeExprs ds o = .error e
  | [], _, _, _, hd, _, _ => by cases hd
  | d' :: ds, o, ho, d, hd, he, hx => by
    rw [VObj.storeExprs]
    generalize hr : o.setitem [.str d'.entry.name] (d'.expr.getD .none) = r
    obtain ⟨r, o'⟩ := r
    cases r with
    | error e => exact ⟨e, rfl⟩
    | ok u =>
      have hcs : o'.cs = o.cs := by
        have h := congrArg (fun x => x.2.cs) hr
        simp only [VObj.setitem] at h
        generalize o.cs.struct.traverse (injectDisp o.cs.map o.mapping) [.str d'.entry.name] (d'.expr.getD .none) o.storage = y at h
        obtain ⟨r, y⟩ := y
        cases r <;> exact h.symm
      rcases List.mem_cons.1 hd with rfl | hd
      · have h := congrArg Prod.fst hr
        rw [VObj.setitem] at h
        have h1 := traverse_short (injectDisp (F := PyFn V) o.cs.map o.mapping) o.cs.struct (by rw [ho]; exact hn) (by rw [ho]; exact he)
          (d.expr.getD .none) hx o.storage
        generalize o.cs.struct.traverse (injectDisp o.cs.map o.mapping) [.str d.entry.name] (d.expr.getD .none) o.storage = y at h h1
        obtain ⟨r, y⟩ := y
        simp only at h1
        subst h1
        cases h
      · exact VObj.storeExprs_short hn ds o' (by rw [hcs]; exact ho) d hd he hx

theorem storeExprs_short [Zero V] {s : Struct} (hn : (s.entries.map Entry.name).Nodup) :
    ∀ (ds : List (EntryDef V)) (o : Obj V), o.cs.struct = s → ∀ d ∈ ds, d.entry ∈ s.entries → ¬ (d.expr.getD .none).Covers d.entry.dims →
      ∃ e, storeExprs ds o = .error e
  | [], _, _, _, hd, _, _ => by cases hd
  | d' :: ds, o, ho, d, hd, he, hx => by
    rw [storeExprs]
    generalize hr : o.setitem [.str d'.entry.name] (d'.expr.getD .none) = r
    obtain ⟨r, o'⟩ := r
    cases r with
    | error e => exact ⟨e, rfl⟩
    | ok u =>
      have hcs : o'.cs = o.cs := by
        have h := congrArg (fun x => x.2.cs) hr
        simp only [Obj.setitem] at h
        generalize o.cs.struct.traverse (setDisp o.cs.map) [.str d'.entry.name] (d'.expr.getD .none) o.master = y at h
        obtain ⟨r, y⟩ := y
        cases r <;> exact h.symm
      rcases List.mem_cons.1 hd with rfl | hd
      · have h := congrArg Prod.fst hr
        rw [Obj.setitem] at h
        have h1 := traverse_short (setDisp o.cs.map) o.cs.struct (by rw [ho]; exact hn) (by rw [ho]; exact he)
          (d.expr.getD .none) hx o.master
        generalize o.cs.struct.traverse (setDisp o.cs.map) [.str d.entry.name] (d.expr.getD .none) o.master = y at h h1
        obtain ⟨r, y⟩ := y
        simp only at h1
        subst h1
        cases h
      · exact storeExprs_short hn ds o' (by rw [hcs]; exact ho) d hd he hx

/-- **C58** (lists that are too short): if in some definition a nested list is shorter than the repeat count, both constructors
raise. -/
theorem C58_short [Zero V] (nan : V) (arg : List (DefItem V)) (order : Option (List OrderItem))
    (hn : ((arg.flatMap DefItem.defs).map fun d => d.entry.name).Nodup)
    (ho : ∀ o, order = some o → (∀ ds, DefItem.tup ds ∉ arg) ∧
      (o.flatMap OrderItem.names).Perm ((arg.flatMap DefItem.defs).map fun d => d.entry.name))
    (hc : ∀ d ∈ arg.flatMap DefItem.defs, ∃ n ds p, d.entry = .prim n ds p ∧ p.sp.Canon)
    (d : EntryDef V) (hd : d ∈ arg.flatMap DefItem.defs) (pay : Pay V) (ds : List ℕ) (m : SMat V) (hh : Heads pay ds m)
    (hpay : newEntry { name := d.entry.name, expr := some pay } = .ok d) (h : ¬ pay.Covers ds) :
    (∃ e, newVeccat arg order = .error e) ∧ (order = none → ∃ e, newSXExprs nan arg = .error e) := by
  rw [C58_heads _ _ _ _ hh, Except.ok.injEq] at hpay
  have hexpr : d.expr.getD .none = pay := by rw [← hpay]; rfl
  have hdims : d.entry.dims = ds := by rw [← hpay]; rfl
  have hsh : ¬ (d.expr.getD .none).Covers d.entry.dims := by rw [hexpr, hdims]; exact h
  have hb := ofList_built (arg.map DefItem.item) order
  rw [defs_entries, List.map_map] at hb
  obtain ⟨c, ls, h1, h2, hwf, _, _⟩ := hb hn (by
      intro o ho'
      refine ⟨?_, (ho o ho').2⟩
      intro es hes
      obtain ⟨i, hi, hie⟩ := List.mem_map.1 hes
      cases i with
      | one e => cases hie
      | tup ds => exact (ho o ho').1 ds hi) (by
      intro n ds' p hp
      obtain ⟨d', hd', he⟩ := List.mem_map.1 hp
      obtain ⟨n', ds'', p', h3, h4⟩ := hc d' hd'
      rw [h3] at he
      cases he
      exact h4) (by
      intro n ds' es o' hp
      obtain ⟨d', hd', he⟩ := List.mem_map.1 hp
      obtain ⟨n', ds'', p', h3, h4⟩ := hc d' hd'
      rw [h3] at he
      cases he)
  have hmem : d.entry ∈ c.struct.entries := by rw [h2]; exact List.mem_map.2 ⟨d, hd, rfl⟩
  constructor
  · unfold newVeccat
    show ∃ e, Except.bind _ _ = _
    rw [h1]
    simp only [Except.bind]
    split
    · exact ⟨_, rfl⟩
    · exact VObj.storeExprs_short hwf.nodup _ _ rfl d hd hmem hsh
  · rintro rfl
    unfold newSXExprs
    show ∃ e, Except.bind _ _ = _
    rw [h1]
    simp only [Except.bind]
    split
    · exact ⟨_, rfl⟩
    · exact storeExprs_short hwf.nodup _ _ rfl d hd hmem hsh

/-- **C58** is false for lists that are too long: `struct_MX([entry("a", expr=[[x], [y, z]])])` succeeds, and `z` is lost. -/
theorem C58_refuted (x y z : V) :
    ∃ (d : EntryDef V) (o : VObj V), newEntry { name := "a", expr := some (.list [.list [.mat (.scalar x)],
        .list [.mat (.scalar y), .mat (.scalar z)]]) } = .ok d ∧
      newVeccat [.one d] none = .ok o ∧ o.master = .ok [x, y] := by
  have hw : ∀ v : V, (SMat.scalar v).WF := fun v => ⟨Sparsity.dense_canon 1 1, rfl⟩
  have hh : Heads (.list [.list [.mat (.scalar x)], .list [.mat (.scalar y), .mat (.scalar z)]]) [2, 1] (SMat.scalar x) :=
    .list (.list (.mat _))
  have hnew := C58_heads "a" _ _ _ hh
  obtain ⟨o, h1, h2⟩ := veccat_cat [.one ⟨.prim "a" [2, 1] ⟨(SMat.scalar x).sp, false, none, none⟩, none, _⟩] none
    ⟨by simp [DefItem.defs], by rintro o ⟨⟩, by
      intro d hd
      simp only [DefItem.defs, List.flatMap_cons, List.flatMap_nil, List.append_nil, List.mem_singleton] at hd
      subst hd
      refine ⟨.list [.list [.mat (.scalar x)], .list [.mat (.scalar y), .mat (.scalar z)]], [2, 1], .dense 1 1, rfl,
        Sparsity.dense_canon 1 1, ?_, ?_⟩
      · intro i hi
        match i, hi with
        | 0, _ => exact ⟨_, rfl, fun j hj => by
            obtain rfl : j = 0 := by omega
            exact ⟨_, rfl, trivial⟩⟩
        | 1, _ => exact ⟨_, rfl, fun j hj => by
            obtain rfl : j = 0 := by omega
            exact ⟨_, rfl, trivial⟩⟩
      · intro is his
        cases his with
        | @cons i _ is _ hi his =>
          cases his with
          | @cons j _ is _ hj his =>
            cases his
            obtain rfl : j = 0 := by omega
            match i, hi with
            | 0, _ => exact ⟨_, rfl, hw x, rfl⟩
            | 1, _ => exact ⟨_, rfl, hw y, rfl⟩⟩ _ (List.Perm.refl _) rfl
  exact ⟨_, o, hnew, h1, h2⟩

/-! ## Examples -/

theorem grid_scalar (v : V) : Grid (.dense 1 1) (.mat (.scalar v)) [] := .mat ⟨Sparsity.dense_canon 1 1, rfl⟩ rfl

/-- A two-by-two list of scalars. -/
theorem grid_two (a b c d : V) : Grid (.dense 1 1)
    (.list [.list [.mat (.scalar a), .mat (.scalar b)], .list [.mat (.scalar c), .mat (.scalar d)]]) [2, 2] := by
  have h : ∀ u v : V, Grid (.dense 1 1) (.list [.mat (.scalar u), .mat (.scalar v)]) [2] := by
    intro u v
    refine .list (l := [.mat (.scalar u), .mat (.scalar v)]) (by simp) ?_
    intro p hp
    simp only [List.mem_cons, List.not_mem_nil, or_false] at hp
    rcases hp with rfl | rfl <;> exact grid_scalar _
  refine .list (l := [.list [.mat (.scalar a), .mat (.scalar b)], .list [.mat (.scalar c), .mat (.scalar d)]]) (by simp) ?_
  intro p hp
  simp only [List.mem_cons, List.not_mem_nil, or_false] at hp
  rcases hp with rfl | rfl <;> exact h _ _

/-- `entry("x", expr=e)` and `entry("L", expr=[[a, b], [c, d]])` -/
def exDefs (e a b c d : V) : List (EntryDef V) :=
  [⟨.prim "x" [] ⟨.dense 1 1, false, none, none⟩, none, some (.mat (.scalar e))⟩,
   ⟨.prim "L" [2, 2] ⟨.dense 1 1, false, none, none⟩, none,
    some (.list [.list [.mat (.scalar a), .mat (.scalar b)], .list [.mat (.scalar c), .mat (.scalar d)]])⟩]

theorem exDefs_def (e a b c d : V) : ∀ x ∈ exDefs e a b c d, ∃ pay ds sp, IsExprDef x pay ds sp := by
  intro x hx
  simp only [exDefs, List.mem_cons, List.not_mem_nil, or_false] at hx
  rcases hx with rfl | rfl
  · exact ⟨_, _, _, grid_scalar e, C58_entry _ _ _ _ (grid_scalar e)⟩
  · exact ⟨_, _, _, grid_two a b c d, C58_entry _ _ _ _ (grid_two a b c d)⟩

theorem exDefs_ok (e a b c d : V) (order : Option (List OrderItem))
    (ho : ∀ o, order = some o → (o.flatMap OrderItem.names).Perm ["x", "L"]) : ExprDefs ((exDefs e a b c d).map .one) order where
  nodup := by simp [exDefs, DefItem.defs, Entry.name]
  order := fun o h => ⟨by simp, by simpa [exDefs, DefItem.defs, Entry.name] using ho o h⟩
  expr := by
    intro x hx
    obtain ⟨pay, ds, sp, h⟩ := exDefs_def e a b c d x (by simpa [flatMap_map', DefItem.defs] using hx)
    exact ⟨pay, ds, sp, h.stores⟩

example : ∃ o, newVeccat ((exDefs 5 1 2 3 4).map .one) none = .ok o ∧ o.master = .ok [5, 1, 2, 3, 4] :=
  C58_veccat_cat _ _ (exDefs_ok 5 1 2 3 4 none (by rintro o ⟨⟩)) (exDefs 5 1 2 3 4) (List.Perm.refl _) (exDefs_def 5 1 2 3 4) rfl

/-- With another order. -/
example : ∃ o, newVeccat ((exDefs 5 1 2 3 4).map .one) (some [.one "L", .one "x"]) = .ok o ∧ o.master = .ok [1, 2, 3, 4, 5] :=
  C58_veccat_cat _ _ (exDefs_ok 5 1 2 3 4 _ (by rintro o ⟨⟩; exact List.Perm.swap _ _ _)) (exDefs 5 1 2 3 4).reverse
    (List.reverse_perm _) (exDefs_def 5 1 2 3 4) rfl

/-- The nested list is read. -/
example : ∃ (o : VObj ℤ) (t : Tree (SMat ℤ)), newVeccat ((exDefs 5 1 2 3 4).map .one) none = .ok o ∧ o.getitem [.str "L"] = .ok t ∧
    t.toPay = .list [.list [.mat (.scalar 1), .mat (.scalar 2)], .list [.mat (.scalar 3), .mat (.scalar 4)]] := by
  obtain ⟨o, h1, h2⟩ := C58_veccat_read_partial _ _ (exDefs_ok (5 : ℤ) 1 2 3 4 none (by rintro o ⟨⟩))
  obtain ⟨t, h3, h4⟩ := h2 ⟨.prim "L" [2, 2] ⟨.dense 1 1, false, none, none⟩, none,
    some (.list [.list [.mat (.scalar 1), .mat (.scalar 2)], .list [.mat (.scalar 3), .mat (.scalar 4)]])⟩
    (by simp [exDefs, DefItem.defs]) _ _ _ ⟨grid_two 1 2 3 4, C58_entry _ _ _ _ (grid_two 1 2 3 4)⟩
  exact ⟨o, t, h1, h3, h4⟩

example : ∃ o : Obj ℤ, newSXExprs 0 ((exDefs 5 1 2 3 4).map .one) = .ok o ∧ o.master = [5, 1, 2, 3, 4] := by
  obtain ⟨c, master, _, h2, _, _, h3⟩ := C58_SX_cat (0 : ℤ) _ (exDefs_ok (5 : ℤ) 1 2 3 4 none (by rintro o ⟨⟩))
  exact ⟨_, h2, h3 _ rfl (exDefs_def 5 1 2 3 4)⟩

/-- `[[a, b], [c]]` is rejected. -/
example (a b c : ℤ) : ∃ e, newVeccat [.one ⟨.prim "L" [2, 2] ⟨.dense 1 1, false, none, none⟩, none,
    some (.list [.list [.mat (.scalar a), .mat (.scalar b)], .list [.mat (.scalar c)]])⟩] none = .error e := by
  have hh : Heads (.list [.list [.mat (.scalar a), .mat (.scalar b)], .list [.mat (.scalar c)]]) [2, 2] (SMat.scalar a) :=
    .list (.list (.mat _))
  refine (C58_short 0 _ none (by simp [DefItem.defs]) (by rintro o ⟨⟩) ?_ ⟨.prim "L" [2, 2] ⟨.dense 1 1, false, none, none⟩, none,
    some (.list [.list [.mat (.scalar a), .mat (.scalar b)], .list [.mat (.scalar c)]])⟩ (by simp [DefItem.defs]) _ _ _ hh
    (C58_heads "L" _ _ _ hh) ?_).1
  · intro d hd
    simp only [DefItem.defs, List.flatMap_cons, List.flatMap_nil, List.append_nil, List.mem_singleton] at hd
    subst hd
    exact ⟨_, _, _, rfl, Sparsity.dense_canon 1 1⟩
  · intro h
    obtain ⟨q, hq, h⟩ := h 1 (by omega)
    cases hq
    obtain ⟨q, hq, _⟩ := h 1 (by omega)
    cases hq

/-- The `struct_MX` of the example stores `c` for `L[1][0]`; `struct_SX` and `struct_MX_mutable` read the same. -/
example : (∃ o : VObj ℤ, newVeccat ((exDefs 5 1 2 3 4).map .one) none = .ok o ∧
      o.expr [.str "L", .int 1, .int 0] = some (.scalar 3)) ∧
    ∃ o o' : Obj ℤ, newSXExprs 0 ((exDefs 5 1 2 3 4).map .one) = .ok o ∧ newMXExprs 0 ((exDefs 5 1 2 3 4).map .one) = .ok o' ∧
      o'.getitem [.str "L"] = o.getitem [.str "L"] ∧ ∃ t, o.getitem [.str "L"] = .ok t ∧
      t.toPay = .list [.list [.mat (.scalar 1), .mat (.scalar 2)], .list [.mat (.scalar 3), .mat (.scalar 4)]] := by
  have hok := exDefs_ok (5 : ℤ) 1 2 3 4 none (by rintro o ⟨⟩)
  have hmem : (⟨.prim "L" [2, 2] ⟨.dense 1 1, false, none, none⟩, none,
    some (.list [.list [.mat (.scalar 1), .mat (.scalar 2)], .list [.mat (.scalar 3), .mat (.scalar 4)]])⟩ : EntryDef ℤ) ∈
      ((exDefs (5 : ℤ) 1 2 3 4).map DefItem.one).flatMap DefItem.defs := by simp [exDefs, DefItem.defs]
  have hdef : IsExprDef (⟨.prim "L" [2, 2] ⟨.dense 1 1, false, none, none⟩, none,
    some (.list [.list [.mat (.scalar 1), .mat (.scalar 2)], .list [.mat (.scalar 3), .mat (.scalar 4)]])⟩ : EntryDef ℤ) _ _ _ :=
    ⟨grid_two 1 2 3 4, C58_entry _ _ _ _ (grid_two 1 2 3 4)⟩
  constructor
  · obtain ⟨o, c, h1, -, -, h2, -⟩ := C52_assemble _ _ hok
    exact ⟨o, h1, h2 _ hmem _ _ _ hdef.stores [1, 0] (.cons (by decide) (.cons (by decide) .nil))⟩
  · obtain ⟨o, o', h1, h2, -, h3⟩ := C58_MX (0 : ℤ) _ hok
    obtain ⟨o1, h4, h5⟩ := C58_SX_read_partial (0 : ℤ) _ hok
    rw [h1] at h4
    cases h4
    exact ⟨o, o', h1, h2, h3 _, h5 _ hmem _ _ _ hdef⟩

end CE.St
