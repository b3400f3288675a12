import Verif.Struct.PropsExpr
import Verif.Struct.PropsSymm

/-! # Expressions for entries of type 'symm' (C143) -/

namespace CE.St

variable {V : Type}

/-! ## Definitions -/

theorem Sparsity.inter_canon {a : Sparsity} (h : a.Canon) (b : Sparsity) : (a.inter b).Canon :=
  List.Sublist.trans List.filter_sublist h

/-- **C143** (definition): `entry(name, expr=L, type='symm')` for a rectangular nested list of square expressions keeps their
pattern and stores its upper triangle. -/
theorem C143_entry (n : String) (pay : Pay V) (ds : List ℕ) (sp : Sparsity) (h : Grid sp pay ds) (hsq : sp.rows = sp.cols) :
    newEntry { name := n, expr := some pay, type := some "symm" } =
      .ok ⟨.prim n ds ⟨sp.inter (.upper sp.rows), true, some sp, none⟩, none, some pay⟩ := by
  obtain ⟨m, rfl, hr⟩ := h.heads
  have hp : pay ≠ .none := by rintro rfl; cases hr
  have he : exprStep (some pay) [] (.dense 1 1) = .ok (ds, m.sp) := by
    rw [exprStep]
    simp only [hr.primitive, List.nil_append]
  unfold newEntry
  simp only [ne_eq, not_true_eq_false, if_false, EntryArgs.conflict, Option.isSome_none, Option.isSome_some, Bool.false_and,
    Bool.and_false, Bool.or_false, Bool.false_or, Bool.true_and, Bool.and_true, Bool.false_eq_true, shapeSp, ssStep, symStep]
  show Except.bind (exprStep (some pay) ([] : List ℕ) (.dense 1 1)) _ = _
  rw [he]
  show Except.bind (typeStep (some "symm") m.sp none) _ = _
  rw [typeStep]
  simp only [ne_eq, not_true_eq_false, if_false, hsq]
  cases pay <;> first | rfl | exact absurd rfl hp

/-- `d` is `entry(name, expr=pay, type='symm')` for a rectangular nested list of expressions with the square pattern `osp`. -/
structure IsSymmDef (d : EntryDef V) (pay : Pay V) (ds : List ℕ) (osp : Sparsity) : Prop where
  grid : Grid osp pay ds
  square : osp.rows = osp.cols
  new : newEntry { name := d.entry.name, expr := some pay, type := some "symm" } = .ok d

/-- What a definition of type 'symm' carries. -/
def symmPrim (osp : Sparsity) : Prim := ⟨osp.inter (.upper osp.rows), true, some osp, none⟩

namespace IsSymmDef
variable {d : EntryDef V} {pay : Pay V} {ds : List ℕ} {osp : Sparsity}

theorem eq (h : IsSymmDef d pay ds osp) : d = ⟨.prim d.entry.name ds (symmPrim osp), none, some pay⟩ := by
  have h2 := h.new
  rw [C143_entry _ _ _ _ h.grid h.square] at h2
  exact (Except.ok.inj h2).symm

theorem isSymm (h : IsSymmDef d pay ds osp) : IsSymm (symmPrim osp) osp := ⟨rfl, rfl, h.grid.canon, h.square, rfl⟩

theorem dims (h : IsSymmDef d pay ds osp) : d.entry.dims = ds := by rw [h.eq]; rfl

theorem expr (h : IsSymmDef d pay ds osp) : d.expr = some pay := by rw [h.eq]

end IsSymmDef

/-- A list of definitions with distinct names, each with expressions; some may be of type 'symm'. -/
structure SymmDefs (arg : List (DefItem V)) (order : Option (List OrderItem)) : Prop where
  nodup : ((arg.flatMap DefItem.defs).map fun d => d.entry.name).Nodup
  order : ∀ o, order = some o → (∀ ds, DefItem.tup ds ∉ arg) ∧
    (o.flatMap OrderItem.names).Perm ((arg.flatMap DefItem.defs).map fun d => d.entry.name)
  expr : ∀ d ∈ arg.flatMap DefItem.defs, ∃ pay ds sp, Stores d pay ds sp ∨ IsSymmDef d pay ds sp

theorem SymmDefs.struct {arg : List (DefItem V)} {order : Option (List OrderItem)} (h : SymmDefs arg order) :
    ∃ c ls, CS.ofList (arg.map DefItem.item) order = .ok c ∧
      c.struct = ⟨(arg.flatMap DefItem.defs).map EntryDef.entry, order.getD ((arg.map DefItem.item).map Item.orderItem)⟩ ∧
      WFs c.struct.entries c.struct.order ∧ Built c ls ∧ CS.ofStruct c.struct = .ok c := by
  have hx : ∀ e ∈ (arg.flatMap DefItem.defs).map EntryDef.entry, ∃ n ds p, e = .prim n ds p ∧ p.sp.Canon := by
    intro e he
    obtain ⟨d, hd, rfl⟩ := List.mem_map.1 he
    obtain ⟨pay, ds, sp, hx | hx⟩ := h.expr d hd
    · exact ⟨d.entry.name, ds, _, by rw [hx.eq]; rfl, hx.canon⟩
    · exact ⟨d.entry.name, ds, symmPrim sp, by rw [hx.eq]; rfl, Sparsity.inter_canon hx.grid.canon _⟩
  have := ofList_built (arg.map DefItem.item) order
  rw [defs_entries, List.map_map] at this
  refine this h.nodup ?_ ?_ ?_
  · intro o ho
    refine ⟨?_, (h.order o ho).2⟩
    intro es hes
    obtain ⟨i, hi, hie⟩ := List.mem_map.1 hes
    cases i with
    | one e => cases hie
    | tup ds => exact (h.order o ho).1 ds hi
  · intro n d p hp
    obtain ⟨n', ds, sp, h1, h2⟩ := hx _ hp
    cases h1
    exact h2
  · intro n d es o hp
    obtain ⟨n', ds, sp, h1, h2⟩ := hx _ hp
    cases h1

theorem SymmDefs.some_expr {arg : List (DefItem V)} {order : Option (List OrderItem)} (h : SymmDefs arg order) :
    ¬ ((arg.flatMap DefItem.defs).any fun e => e.expr.isNone) = true := by
  intro hany
  obtain ⟨d, hd, hn⟩ := List.any_eq_true.1 hany
  obtain ⟨pay, ds, sp, hx | hx⟩ := h.expr d hd
  · rw [hx.eq] at hn
    exact absurd hn (by simp)
  · rw [hx.expr] at hn
    exact absurd hn (by simp)

/-! ## `struct_SX` -/

section
variable [Zero V]

theorem SMat.at'_zero {m : SMat V} (h : m.WF) {q : ℕ × ℕ} (hq : q ∉ m.sp.nz) : m.at' q = 0 := by
  rw [SMat.at', (SMat.nzAt_eq_none h).2 hq]
  rfl

/-- What is stored for a repetition: the elements of its expression at the positions of the stored pattern. -/
def defVals (ds : List (EntryDef V)) (t : CIdx) : List V :=
  match t with
  | .str n :: ks => ((ds.find? fun d => d.entry.name = n).map fun d => d.entry.readSp.nz.map ((d.expr.getD .none).matAt (ks.map
      fun k => match k with
        | .int i => i.toNat
        | .str _ => 0)).at').getD []
  | _ => []

theorem defVals_eq {ds : List (EntryDef V)} (hn : (ds.map fun d => d.entry.name).Nodup) {d : EntryDef V} (hd : d ∈ ds)
    {pay : Pay V} (hp : d.expr = some pay) (is : List ℕ) :
    defVals ds (.str d.entry.name :: natKeys is) = d.entry.readSp.nz.map (pay.matAt is).at' := by
  have hf : (ds.find? fun d' => d'.entry.name = d.entry.name) = some d := by
    induction ds with
    | nil => cases hd
    | cons a ds ih =>
      rw [List.map_cons, List.nodup_cons] at hn
      rcases List.mem_cons.1 hd with rfl | hd'
      · simp
      · rw [List.find?_cons_of_neg, ih hn.2 hd']
        intro h
        exact hn.1 (List.mem_map.2 ⟨d, hd', (of_decide_eq_true h).symm⟩)
  rw [defVals, hf]
  simp only [hp, Option.map_some, Option.getD_some, natKeys, List.map_map]
  congr 2
  conv_rhs => rw [← List.map_id is]
  congr 1

theorem symmFits {arg : List (DefItem V)} {order : Option (List OrderItem)} (h : SymmDefs arg order) {c : CS}
    (h2 : c.struct.entries = (arg.flatMap DefItem.defs).map EntryDef.entry) :
    DictFits c.struct (exprItems (arg.flatMap DefItem.defs)) (defVals (arg.flatMap DefItem.defs)) := by
  intro e he
  have he' := he
  rw [h2] at he
  obtain ⟨d, hd, rfl⟩ := List.mem_map.1 he
  have hget : ∀ pay, d.expr = some pay → dictGet (exprItems (arg.flatMap DefItem.defs)) d.entry.name = some pay := by
    intro pay hpay
    refine dictGet_of_mem ?_ ?_
    · rw [exprItems, List.map_map]; exact h.nodup
    · exact List.mem_map.2 ⟨d, hd, by rw [hpay]; rfl⟩
  obtain ⟨pay, ds, sp, hx | hx⟩ := h.expr d hd
  · have hdims : d.entry.dims = ds := by rw [hx.eq]; rfl
    have hpay : d.expr = some pay := by rw [hx.eq]
    refine ⟨pay, hget pay hpay, by rw [hdims]; exact hx.covers, ?_⟩
    intro is his
    rw [hdims] at his
    obtain ⟨m, hm, hmw, rfl⟩ := hx.at' _ his
    refine ⟨.mat m, m.sp, m.at', hm, .plain (e := some ⟨m.sp, false, none, none⟩) ?_ ?_ (.mat m) hmw (.same rfl rfl), ?_⟩
    · refine .leaf (p := ⟨m.sp, false, none, none⟩) (.prim (dims := ds) ?_ (natKeys_inDims his))
      rw [hx.eq] at he'; exact he'
    · rintro p ⟨⟩; rfl
    · rw [defVals_eq h.nodup hd hpay, Pay.matAt_eq hm]
      congr 1
      rw [hx.eq]
      rfl
  · refine ⟨pay, hget pay hx.expr, by rw [hx.dims]; exact hx.grid.covers, ?_⟩
    intro is his
    rw [hx.dims] at his
    obtain ⟨m, hm, hmw, rfl⟩ := hx.grid.at his
    refine ⟨.mat m, (symmPrim m.sp).sp, m.at', hm, .symm (p := symmPrim m.sp) ?_ hx.isSymm (.mat m) hmw (.inl ⟨rfl, rfl⟩), ?_⟩
    · refine .prim (dims := ds) ?_ (natKeys_inDims his)
      rw [hx.eq] at he'; exact he'
    · rw [defVals_eq h.nodup hd hx.expr, Pay.matAt_eq hm]
      congr 1
      rw [hx.eq]
      rfl

theorem newSXExprs_eq' (nan : V) (arg : List (DefItem V)) (h : SymmDefs arg none) :
    ∃ c, CS.ofList (arg.map DefItem.item) none = .ok c ∧
      newSXExprs nan arg = callDM nan c (.dict (exprItems (arg.flatMap DefItem.defs))) := by
  obtain ⟨c, ls, h1, h2, hwf, hb, _⟩ := h.struct
  refine ⟨c, h1, ?_⟩
  have hnames : (exprItems (arg.flatMap DefItem.defs)).map Prod.fst = (arg.flatMap DefItem.defs).map fun d => d.entry.name := by
    rw [exprItems, List.map_map]; rfl
  have hkeys : c.struct.keys = (arg.flatMap DefItem.defs).map fun d => d.entry.name := by
    rw [Struct.keys, h2]
    simp only [Option.getD_none]
    rw [default_names, defs_entries, List.map_map]
    rfl
  unfold newSXExprs
  show Except.bind _ _ = _
  rw [h1]
  show (if _ then _ else _) = _
  rw [if_neg h.some_expr, callDM, if_pos, hkeys]
  · apply storeExprs_assignKeys
    intro d hd
    exact dictGet_of_mem (by rw [hnames]; exact h.nodup) (List.mem_map.2 ⟨d, hd, rfl⟩)
  · rw [Bool.and_eq_true, List.all_eq_true, List.all_eq_true, hnames, hkeys]
    simp

/-- **C143** (`struct_SX`): the constructor accepts expressions for entries of type 'symm'.  Every repetition of such an entry reads
the symmetric matrix with the upper triangle of its expression, so the expression itself if it is symmetric; the other entries read
their expressions. -/
theorem C143_SX_partial [Add V] [Sub V] (hv : ∀ x : V, x + x - x = x) (nan : V) (arg : List (DefItem V)) (h : SymmDefs arg none) :
    ∃ o, newSXExprs nan arg = .ok o ∧
      (∀ d ∈ arg.flatMap DefItem.defs, ∀ pay ds sp, IsExprDef d pay ds sp → ∃ t, o.getitem [.str d.entry.name] = .ok t ∧ t.toPay = pay) ∧
      ∀ d ∈ arg.flatMap DefItem.defs, ∀ pay ds osp, IsSymmDef d pay ds osp → ∀ is, List.Forall₂ (· < ·) is ds →
        ∃ m r, pay.at is = some (.mat m) ∧ o.getitem (.str d.entry.name :: (natKeys is).map .ofKey) = .ok (.leaf r) ∧ r.WF ∧
          (∀ i j, i ≤ j → r.at' (i, j) = m.at' (i, j) ∧ r.at' (j, i) = m.at' (i, j)) ∧
          ((∀ i j, m.at' (i, j) = m.at' (j, i)) → ∀ q, r.at' q = m.at' q) := by
  obtain ⟨c, ls, h1, h2, hwf, hb, h3⟩ := h.struct
  obtain ⟨c', g1, g2⟩ := newSXExprs_eq' nan arg h
  rw [h1] at g1
  cases g1
  have hk : ∀ k, k ∈ (exprItems (arg.flatMap DefItem.defs)).map Prod.fst ↔ ∃ e ∈ c.struct.entries, e.name = k := by
    intro k
    rw [h2, exprItems, List.map_map]
    simp [List.mem_map]
  have hfit := symmFits h (c := c) (by rw [h2])
  obtain ⟨o, k1, k2⟩ := C47_read nan c.struct hwf c h3 _ hk _ hfit
  obtain ⟨o', l1, l2⟩ := C47_symm hv nan c.struct hwf c h3 _ hk _ hfit
  rw [k1] at l1
  cases l1
  refine ⟨o, g2.trans k1, ?_, ?_⟩
  · intro d hd pay ds sp hg
    have hx := hg.stores
    have hpay : d.expr = some pay := by rw [hx.eq]
    have := k2 d.entry (by rw [h2]; exact List.mem_map.2 ⟨d, hd, rfl⟩) (by
      intro n d' p hp
      rw [hx.eq] at hp
      cases hp
      rfl)
    refine ⟨_, this, ?_⟩
    have hdims : d.entry.dims = ds := by rw [hx.eq]; rfl
    have hsp : d.entry.readSp = sp := by rw [hx.eq]; rfl
    rw [hdims, hsp]
    have hnest : nest ds (fun is => (⟨sp, defVals (arg.flatMap DefItem.defs) (.str d.entry.name :: natKeys is)⟩ : SMat V)) =
        nest ds fun is => pay.matAt is := by
      apply nest_congr
      intro is his
      obtain ⟨m, hm, hmw, rfl⟩ := hx.at' is his
      rw [defVals_eq h.nodup hd hpay, Pay.matAt_eq hm, hsp]
      exact (SMat.eq_fill hmw).symm
    rw [hnest]
    exact hg.1.nest
  · intro d hd pay ds osp hx is his
    obtain ⟨m, hm, hmw, hmsp⟩ := hx.grid.at his
    have he : Entry.prim d.entry.name ds (symmPrim osp) ∈ c.struct.entries := by
      rw [h2]
      have := List.mem_map_of_mem (f := EntryDef.entry) hd
      rw [hx.eq] at this
      exact this
    have hget : dictGet (exprItems (arg.flatMap DefItem.defs)) d.entry.name = some pay := by
      refine dictGet_of_mem ?_ ?_
      · rw [exprItems, List.map_map]; exact h.nodup
      · exact List.mem_map.2 ⟨d, hd, by rw [hx.expr]; rfl⟩
    obtain ⟨r, r1, r2, r3, r4, r5⟩ := l2 _ _ _ he osp hx.isSymm pay hget is his _ m m.at' hm (.mat m) hmw (.inl ⟨hmsp, rfl⟩)
    refine ⟨m, r, hm, r1, r2, ?_, r5 hmsp⟩
    intro i j hij
    by_cases hin : (i, j) ∈ r.sp.nz
    · exact r4 i j hin hij
    · have hno : (i, j) ∉ m.sp.nz := by
        intro hmem
        apply hin
        rw [hmsp] at hmem
        have hb := hx.grid.canon.mem hmem
        have hsq := hx.square
        rw [r3, IsSymm.pattern, Sparsity.mem_ofPred]
        simp only [decide_eq_true_eq]
        exact ⟨by omega, .inl ⟨hmem, hij⟩⟩
      have hno' : (j, i) ∉ r.sp.nz := by
        intro hmem
        rw [r3, IsSymm.pattern, Sparsity.mem_ofPred] at hmem
        simp only [decide_eq_true_eq] at hmem
        rw [hmsp] at hno
        rcases hmem.2 with ⟨g, gl⟩ | ⟨g, _⟩
        · obtain rfl : i = j := by omega
          exact hno g
        · exact hno g
      rw [SMat.at'_zero r2 hin, SMat.at'_zero r2 hno', SMat.at'_zero hmw hno]
      exact ⟨rfl, rfl⟩

end

/-! ## `struct_MX` -/

theorem VObj.setitem_cs (o : VObj V) (pi : List (PIdx (PyFn V))) (pay : Pay V) : (o.setitem pi pay).2.cs = o.cs := by
  rw [VObj.setitem]
  generalize o.cs.struct.traverse (injectDisp o.cs.map o.mapping) pi pay o.storage = y
  obtain ⟨r, y⟩ := y
  cases r <;> rfl

/-- An expression whose pattern is not the one of the entry is rejected. -/
theorem VObj.setitem_pattern {c : CS} {ls} (hb : Built c ls) (hwf : WFs c.struct.entries c.struct.order) {o : VObj V} (ho : o.cs = c)
    {t : CIdx} {p sp} (hp : IsPart c.struct.entries t p sp) (m : SMat V) (hm : m.sp ≠ sp) :
    o.setitem (t.map .ofKey) (.mat m) = (.error .generic, o) := by
  subst ho
  have h := o.setitem_part hwf hp [] (fun _ => rfl) (.mat m)
  rw [List.append_nil] at h
  obtain ⟨i, hi, _, _, _, hsp⟩ := hb.part hwf hp
  rw [h, inject]
  simp only [List.isEmpty_nil, if_true, Option.isSome_none, Bool.false_eq_true, if_false]
  cases dictGet o.mapping t with
  | none => rfl
  | some k =>
    simp only [hi]
    rw [if_pos]
    · rfl
    · rw [hsp]; exact fun h => hm h.symm

theorem VObj.setAll_error {c : CS} : ∀ (l : List (List (PIdx (PyFn V)) × Pay V)) (o : VObj V), o.cs = c →
    (∃ w ∈ l, ∀ o' : VObj V, o'.cs = c → ∃ e, (o'.setitem w.1 w.2).1 = .error e) → ∃ e, (o.setAll l).1 = .error e
  | [], _, _, ⟨_, h, _⟩ => by cases h
  | (pi, v) :: l, o, ho, ⟨w, hw, h⟩ => by
    rw [VObj.setAll]
    have hcs := o.setitem_cs pi v
    generalize hr : o.setitem pi v = r at hcs
    obtain ⟨r, o'⟩ := r
    cases r with
    | error e => exact ⟨e, rfl⟩
    | ok u =>
      rcases List.mem_cons.1 hw with rfl | hw
      · obtain ⟨e, he⟩ := h o ho
        rw [hr] at he
        cases he
      · exact VObj.setAll_error l o' (hcs.trans ho) ⟨w, hw, h⟩

theorem VObj.storeExprs_error {c : CS} : ∀ (l : List (EntryDef V)) (o : VObj V), o.cs = c →
    (∃ d ∈ l, ∀ o' : VObj V, o'.cs = c → ∃ e, (o'.setitem [.str d.entry.name] (d.expr.getD .none)).1 = .error e) →
    ∃ e, VObj.storeExprs l o = .error e
  | [], _, _, ⟨_, h, _⟩ => by cases h
  | d :: l, o, ho, ⟨w, hw, h⟩ => by
    rw [VObj.storeExprs]
    have hcs := o.setitem_cs [.str d.entry.name] (d.expr.getD .none)
    generalize hr : o.setitem [.str d.entry.name] (d.expr.getD .none) = r at hcs
    obtain ⟨r, o'⟩ := r
    cases r with
    | error e => exact ⟨e, rfl⟩
    | ok u =>
      rcases List.mem_cons.1 hw with rfl | hw
      · obtain ⟨e, he⟩ := h o ho
        rw [hr] at he
        cases he
      · exact VObj.storeExprs_error l o' (hcs.trans ho) ⟨w, hw, h⟩

/-- The claim "`struct_MX` accepts expressions for entries of type 'symm'" is false: **C143** (`struct_MX`): a definition of type 'symm'
whose expressions have an element below the diagonal makes the constructor raise, whatever the other definitions and the order are. -/
theorem C143_MX_refuted (arg : List (DefItem V)) (order : Option (List OrderItem)) (h : SymmDefs arg order)
    (d : EntryDef V) (hd : d ∈ arg.flatMap DefItem.defs) (pay : Pay V) (ds : List ℕ) (osp : Sparsity) (hx : IsSymmDef d pay ds osp)
    (i j : ℕ) (hij : (i, j) ∈ osp.nz) (hlt : j < i) : ∃ e, newVeccat arg order = .error e := by
  obtain ⟨c, ls, h1, h2, hwf, hb, _⟩ := h.struct
  unfold newVeccat
  show ∃ e, Except.bind _ _ = _
  rw [h1]
  simp only [Except.bind]
  rw [if_neg h.some_expr]
  refine VObj.storeExprs_error _ _ rfl ⟨d, hd, ?_⟩
  intro o ho
  have he : d.entry ∈ c.struct.entries := by rw [h2]; exact List.mem_map.2 ⟨d, hd, rfl⟩
  have hne : (symmPrim osp).sp ≠ osp := by
    intro heq
    have : (i, j) ∈ (symmPrim osp).sp.nz := by rw [heq]; exact hij
    have := (hx.isSymm.mem_sp.1 this).2
    simp only at this
    omega
  rw [hx.expr, Option.getD_some, o.setitem_dist (by rw [ho]; exact hwf) (by rw [ho]; exact he) pay (by rw [hx.dims]; exact hx.grid.covers)]
  refine VObj.setAll_error _ _ ho ?_
  obtain ⟨is, his⟩ := hx.grid.pos
  obtain ⟨m, hm, _, hmsp⟩ := hx.grid.at his
  refine ⟨_, List.mem_map.2 ⟨is, by rw [hx.dims]; exact mem_tuples.2 his, rfl⟩, ?_⟩
  intro o' ho'
  simp only [hm, Option.getD_some]
  have hp : IsPart c.struct.entries (.str d.entry.name :: natKeys is) (some (symmPrim osp)) (symmPrim osp).sp := by
    refine .leaf (.prim (dims := ds) ?_ (natKeys_inDims his))
    have := he
    rw [hx.eq] at this
    exact this
  rw [VObj.setitem_pattern hb hwf ho' hp m (by rw [hmsp]; exact hne.symm)]
  exact ⟨_, rfl⟩

/-- `d` is a definition with the expressions `pay`, which have the stored pattern of the entry. -/
structure StoresP (d : EntryDef V) (pay : Pay V) (ds : List ℕ) (p : Prim) : Prop where
  eq : d = ⟨.prim d.entry.name ds p, none, some pay⟩
  covers : pay.Covers ds
  at' : ∀ is, List.Forall₂ (· < ·) is ds → ∃ m, pay.at is = some (.mat m) ∧ m.WF ∧ m.sp = p.sp

theorem VObj.storeExprs_ok {c : CS} {ls} (hb : Built c ls) (hwf : WFs c.struct.entries c.struct.order) :
    ∀ (ds : List (EntryDef V)) {o : VObj V}, VReach c o → (ds.map fun d => d.entry.name).Nodup →
      (∀ d ∈ ds, d.entry ∈ c.struct.entries ∧ ∃ pay dims p, StoresP d pay dims p) →
      ∃ o', VObj.storeExprs ds o = .ok o' ∧ VReach c o' ∧
        (∀ d ∈ ds, ∀ pay dims p, StoresP d pay dims p → ∀ is, List.Forall₂ (· < ·) is dims →
          o'.expr (.str d.entry.name :: natKeys is) = some (pay.matAt is)) ∧
        ∀ e ∈ c.struct.entries, e.name ∉ (ds.map fun d => d.entry.name) → ∀ ks, InDims ks e.dims →
          o'.expr (.str e.name :: ks) = o.expr (.str e.name :: ks)
  | [], o, ho, _, _ => ⟨o, rfl, ho, by simp, fun _ _ _ _ _ => rfl⟩
  | d :: ds, o, ho, hnd, h => by
    rw [List.map_cons, List.nodup_cons] at hnd
    obtain ⟨hd, pay, dims, p, hx⟩ := h d List.mem_cons_self
    have hg := ho.good hwf
    have heq := hx.eq
    have hdims : d.entry.dims = dims := by rw [heq]; rfl
    let ws : List (CIdx × SMat V) := (tuples dims).map fun is => (.str d.entry.name :: natKeys is, pay.matAt is)
    have hset : o.setitem [.str d.entry.name] (d.expr.getD .none) = o.setAll (ws.map fun w => (w.1.map .ofKey, .mat w.2)) := by
      have hpay : d.expr.getD .none = pay := by rw [heq]; rfl
      rw [hpay, o.setitem_dist (by rw [hg.cs]; exact hwf) (by rw [hg.cs]; exact hd) pay (by rw [hdims]; exact hx.covers), hdims,
        List.map_map]
      congr 1
      apply List.map_congr_left
      intro is his
      obtain ⟨m, hm, _⟩ := hx.at' _ (mem_tuples.1 his)
      simp only [Function.comp, Pay.matAt_eq hm, hm]
      rfl
    obtain ⟨o1, h1, h2, h3, h4⟩ := VObj.setAll_assign hb hwf ws ho (by
        rw [List.map_map]
        exact (tuples_nodup dims).map fun a b hab => natKeys_inj (List.cons.inj hab).2) (by
        intro w hw
        obtain ⟨is, his, rfl⟩ := List.mem_map.1 hw
        obtain ⟨m, hm, hwfm, hsp⟩ := hx.at' _ (mem_tuples.1 his)
        have hin : InDims (natKeys is) d.entry.dims := by rw [hdims]; exact natKeys_inDims (mem_tuples.1 his)
        refine ⟨(mem_tops hwf).2 ⟨d.entry, hd, _, hin, rfl⟩, ⟨some p, ?_⟩, ?_⟩
        · simp only [Pay.matAt_eq hm, hsp]
          refine .leaf (p := p) (.prim (dims := dims) ?_ ?_)
          · rw [heq] at hd; exact hd
          · rw [← hdims]; exact hin
        · simp only [Pay.matAt_eq hm]; exact hwfm)
    obtain ⟨o', h5, h6, h7, h8⟩ := VObj.storeExprs_ok hb hwf ds h2 hnd.2 fun v hv => h v (List.mem_cons_of_mem _ hv)
    have hlast : ∀ is, List.Forall₂ (· < ·) is dims → o'.expr (.str d.entry.name :: natKeys is) = some (pay.matAt is) := by
      intro is his
      rw [h8 _ hd hnd.1 _ (by rw [hdims]; exact natKeys_inDims his)]
      exact h3 (_, _) (List.mem_map.2 ⟨is, mem_tuples.2 his, rfl⟩)
    refine ⟨o', ?_, h6, ?_, ?_⟩
    · rw [VObj.storeExprs, hset, h1]
      exact h5
    · intro d' hd' pay' dims' sp' hx'
      rcases List.mem_cons.1 hd' with rfl | hd'
      · have e := heq.symm.trans hx'.eq
        simp only [EntryDef.mk.injEq, Entry.prim.injEq, Option.some.injEq, true_and] at e
        obtain ⟨⟨rfl, _⟩, rfl⟩ := e
        exact hlast
      · exact h7 d' hd' pay' dims' sp' hx'
    · intro e he hn ks hks
      rw [List.map_cons, List.mem_cons, not_or] at hn
      rw [h8 e he hn.2 ks hks]
      refine h4 _ ((mem_tops hwf).2 ⟨e, he, ks, hks, rfl⟩) ?_
      intro hmem
      obtain ⟨w, hw, hw'⟩ := List.mem_map.1 hmem
      obtain ⟨is, _, rfl⟩ := List.mem_map.1 hw
      have := (List.cons.inj hw').1
      injection this with this
      exact hn.1 this.symm

/-- An upper triangular pattern is its own upper triangle. -/
theorem symmPrim_upper {osp : Sparsity} (hc : osp.Canon) (hsq : osp.rows = osp.cols) (hu : ∀ i j, (i, j) ∈ osp.nz → i ≤ j) :
    (symmPrim osp).sp = osp := by
  show osp.inter (.upper osp.rows) = osp
  have hf : osp.nz.filter (fun q => decide (q ∈ (Sparsity.upper osp.rows).nz)) = osp.nz := by
    apply List.filter_eq_self.2
    intro q hq
    have := hc.mem hq
    exact decide_eq_true (Sparsity.mem_upper.2 ⟨hu q.1 q.2 hq, by omega⟩)
  rw [Sparsity.inter]
  cases osp
  simp only [Sparsity.mk.injEq, true_and]
  simpa using hf

/-- **C143** (`struct_MX`): the constructor succeeds exactly if all expressions of type 'symm' are upper triangular, and then stores, for
every repetition, the expression of the nested list. -/
theorem C143_MX (arg : List (DefItem V)) (order : Option (List OrderItem)) (h : SymmDefs arg order) :
    ((∃ o, newVeccat arg order = .ok o) ↔ ∀ d ∈ arg.flatMap DefItem.defs, ∀ pay ds osp, IsSymmDef d pay ds osp →
      ∀ i j, (i, j) ∈ osp.nz → i ≤ j) ∧
    ∀ o, newVeccat arg order = .ok o → ∃ c, CS.ofList (arg.map DefItem.item) order = .ok c ∧ VReach c o ∧
      (∀ d ∈ arg.flatMap DefItem.defs, ∀ pay ds sp, Stores d pay ds sp ∨ IsSymmDef d pay ds sp → ∀ is, List.Forall₂ (· < ·) is ds →
        o.expr (.str d.entry.name :: natKeys is) = some (pay.matAt is)) ∧
      ∀ t ∈ c.struct.traverseCanonicalIndex 1, ∃ m, o.expr t = some m := by
  obtain ⟨c, ls, h1, h2, hwf, hb, _⟩ := h.struct
  have hfwd : ∀ o, newVeccat arg order = .ok o → ∀ d ∈ arg.flatMap DefItem.defs, ∀ pay ds osp, IsSymmDef d pay ds osp →
      ∀ i j, (i, j) ∈ osp.nz → i ≤ j := by
    intro o ho d hd pay ds osp hx i j hij
    by_contra hlt
    obtain ⟨e, he⟩ := C143_MX_refuted arg order h d hd pay ds osp hx i j hij (not_le.1 hlt)
    rw [ho] at he
    cases he
  have hback : (∀ d ∈ arg.flatMap DefItem.defs, ∀ pay ds osp, IsSymmDef d pay ds osp → ∀ i j, (i, j) ∈ osp.nz → i ≤ j) →
      ∃ o, newVeccat arg order = .ok o ∧ VReach c o ∧
      (∀ d ∈ arg.flatMap DefItem.defs, ∀ pay ds sp, Stores d pay ds sp ∨ IsSymmDef d pay ds sp → ∀ is, List.Forall₂ (· < ·) is ds →
        o.expr (.str d.entry.name :: natKeys is) = some (pay.matAt is)) ∧
      ∀ t ∈ c.struct.traverseCanonicalIndex 1, ∃ m, o.expr t = some m := by
    intro hup
    have hst : ∀ d ∈ arg.flatMap DefItem.defs, ∀ pay ds sp, Stores d pay ds sp ∨ IsSymmDef d pay ds sp → ∃ p, StoresP d pay ds p := by
      rintro d hd pay ds sp (hx | hx)
      · exact ⟨_, hx.eq, hx.covers, hx.at'⟩
      · refine ⟨_, hx.eq, hx.grid.covers, ?_⟩
        intro is his
        rw [symmPrim_upper hx.grid.canon hx.square (hup d hd pay ds sp hx)]
        exact hx.grid.at his
    obtain ⟨o, k1, k2, k3, _⟩ := VObj.storeExprs_ok hb hwf (arg.flatMap DefItem.defs) (o := .empty c) .new h.nodup
      (fun d hd => ⟨by rw [h2]; exact List.mem_map.2 ⟨d, hd, rfl⟩, by
        obtain ⟨pay, ds, sp, hx⟩ := h.expr d hd
        obtain ⟨p, hp⟩ := hst d hd pay ds sp hx
        exact ⟨pay, ds, p, hp⟩⟩)
    have k4 : ∀ d ∈ arg.flatMap DefItem.defs, ∀ pay ds sp, Stores d pay ds sp ∨ IsSymmDef d pay ds sp → ∀ is, List.Forall₂ (· < ·) is ds →
        o.expr (.str d.entry.name :: natKeys is) = some (pay.matAt is) := by
      intro d hd pay ds sp hx is his
      obtain ⟨p, hp⟩ := hst d hd pay ds sp hx
      exact k3 d hd pay ds p hp is his
    refine ⟨o, ?_, k2, k4, ?_⟩
    · unfold newVeccat
      show Except.bind _ _ = _
      rw [h1]
      show (if _ then _ else _) = _
      rw [if_neg h.some_expr, k1]
    · intro t ht
      rw [traverseCanonicalIndex_one, mem_tops hwf] at ht
      obtain ⟨e, he, ks, hks, rfl⟩ := ht
      rw [h2] at he
      obtain ⟨d, hd, rfl⟩ := List.mem_map.1 he
      obtain ⟨pay, ds, sp, hx⟩ := h.expr d hd
      have hdims : d.entry.dims = ds := by
        rcases hx with hx | hx
        · rw [hx.eq]; rfl
        · exact hx.dims
      rw [hdims] at hks
      obtain ⟨is, his, rfl⟩ := inDims_natKeys hks
      exact ⟨_, k4 d hd pay ds sp hx is his⟩
  refine ⟨⟨?_, ?_⟩, ?_⟩
  · rintro ⟨o, ho⟩
    exact hfwd o ho
  · intro hup
    obtain ⟨o, ho, _⟩ := hback hup
    exact ⟨o, ho⟩
  · intro o ho
    obtain ⟨o', k1, k2, k3, k4⟩ := hback (hfwd o ho)
    rw [ho] at k1
    cases k1
    exact ⟨c, h1, k2, k3, k4⟩

/-- What is read from an entry of type 'symm' whose stored values are those of `m`. -/
theorem getitem_symm_of_stored [Zero V] [Add V] [Sub V] (hv : ∀ x : V, x + x - x = x) {c : CS} {ls} (hb : Built c ls)
    (hwf : WFs c.struct.entries c.struct.order) {l : List V} (hlen : l.length = c.size) {t : CIdx} {p : Prim} {osp : Sparsity}
    (hp : IsLeaf c.struct.entries t p) (hs : IsSymm p osp) {m : SMat V} (hmw : m.WF) (hmsp : m.sp = p.sp) (hst : stored c l t = m.data) :
    ∃ r, (⟨c, l, []⟩ : Obj V).getitem (t.map .ofKey) = .ok (.leaf r) ∧ r.WF ∧ r.sp = IsSymm.pattern osp ∧
      ∀ i j, i ≤ j → r.at' (i, j) = m.at' (i, j) ∧ r.at' (j, i) = m.at' (i, j) := by
  have hread := getitem_stored hb hwf hlen (.leaf hp)
  rw [hst, if_pos (by exact hs.symm), triu2symm_eq hs rfl] at hread
  have hmm : (⟨p.sp, m.data⟩ : SMat V) = m := by rw [← hmsp]
  rw [hmm] at hread
  have hcan : (IsSymm.pattern osp).Canon := Sparsity.ofPred_canon _ _ _
  refine ⟨_, hread, SMat.fill_WF hcan _, rfl, ?_⟩
  have hpat : ∀ i j, i ≤ j → ((i, j) ∈ (IsSymm.pattern osp).nz ↔ (i, j) ∈ m.sp.nz) ∧
      ((j, i) ∈ (IsSymm.pattern osp).nz ↔ (i, j) ∈ m.sp.nz) := by
    intro i j hij
    rw [hmsp, hs.mem_sp]
    simp only [IsSymm.pattern, Sparsity.mem_ofPred, decide_eq_true_eq]
    have hsq := hs.square
    constructor
    · constructor
      · rintro ⟨_, ⟨g, _⟩ | ⟨g, gl⟩⟩
        · exact ⟨g, hij⟩
        · obtain rfl : i = j := by omega
          exact ⟨g, hij⟩
      · rintro ⟨g, _⟩
        have := hs.canon.mem g
        exact ⟨by omega, .inl ⟨g, hij⟩⟩
    · constructor
      · rintro ⟨_, ⟨g, gl⟩ | ⟨g, _⟩⟩
        · obtain rfl : i = j := by omega
          exact ⟨g, hij⟩
        · exact ⟨g, hij⟩
      · rintro ⟨g, _⟩
        have := hs.canon.mem g
        exact ⟨by omega, .inr ⟨g, hij⟩⟩
  intro i j hij
  obtain ⟨e1, e2⟩ := hpat i j hij
  rw [SMat.fill_at' hcan, SMat.fill_at' hcan]
  by_cases hin : (i, j) ∈ m.sp.nz
  · rw [if_pos (e1.2 hin), if_pos (e2.2 hin)]
    rcases hij.lt_or_eq with hlt | rfl
    · simp only [hlt.ne, hlt.ne', hlt, if_false, if_true, not_lt.2 hlt.le, and_self]
    · simp only [if_true, hv, and_self]
  · rw [if_neg (fun h => hin (e1.1 h)), if_neg (fun h => hin (e2.1 h)), SMat.at'_zero hmw hin]
    exact ⟨rfl, rfl⟩

section
variable {c : CS} {o : VObj V}

/-- What `.cat` holds for a repetition is its expression. -/
theorem veccat_stored [Zero V] {ls} (hb : Built c ls) (hwf : WFs c.struct.entries c.struct.order) (h : VReach c o)
    (hall : ∀ t ∈ c.struct.traverseCanonicalIndex 1, ∃ m, o.expr t = some m) :
    ∃ l, o.master = .ok l ∧ l.length = c.size ∧ ∀ t ∈ c.struct.traverseCanonicalIndex 1, ∀ m, o.expr t = some m →
      stored c l t = m.data := by
  obtain ⟨l, h1, h2, h3⟩ := (C52_cat hb hwf h).1 hall
  refine ⟨l, h1, h2, ?_⟩
  intro t ht m hm
  have hg := h.good hwf
  rw [traverseCanonicalIndex_one] at hall ht h3
  obtain ⟨A, B, hAB⟩ := List.append_of_mem ht
  rw [hb.stored_top hwf hAB h2]
  have hA : ∀ t' ∈ A, (((o.expr t').map SMat.data).getD []).length = topSize c.struct.entries t' := by
    intro t' ht'
    have ht' : t' ∈ tops c.struct.entries c.struct.order := by rw [hAB]; simp [ht']
    obtain ⟨m', hm'⟩ := hall t' ht'
    rw [hm', Option.map_some, Option.getD_some, (hg.expr_size hb hwf ht' hm').1]
  obtain ⟨hlen, _⟩ := hg.expr_size hb hwf ht hm
  rw [h3, hAB, List.flatMap_append, List.flatMap_cons, hm, Option.map_some, Option.getD_some]
  have : (A.map (topSize c.struct.entries)).sum = (A.flatMap fun t => ((o.expr t).map SMat.data).getD []).length := by
    rw [List.length_flatMap]
    congr 1
    exact (List.map_congr_left hA).symm
  rw [this, List.drop_left, ← hlen, List.take_left]

/-- **C143** (assigning in `struct_MX`): an entry of type 'symm' takes exactly the expressions whose pattern is the upper triangle of
the declared one; everything else raises and changes nothing. -/
theorem C143_assign {ls} (hb : Built c ls) (hwf : WFs c.struct.entries c.struct.order) (h : VReach c o)
    (t : CIdx) (ht : t ∈ c.struct.traverseCanonicalIndex 1) (p : Prim) (osp : Sparsity) (hp : IsLeaf c.struct.entries t p)
    (hs : IsSymm p osp) (pay : Pay V) :
    ((o.setitem (t.map .ofKey) pay).1 = .ok () ↔ ∃ m, pay = .mat m ∧ m.sp = osp.inter (.upper osp.rows)) ∧
      (∀ m, pay = .mat m → m.sp = osp.inter (.upper osp.rows) → ∀ t' ∈ c.struct.traverseCanonicalIndex 1,
        (o.setitem (t.map .ofKey) pay).2.expr t' = if t' = t then some m else o.expr t') ∧
      ((o.setitem (t.map .ofKey) pay).1 ≠ .ok () → o.setitem (t.map .ofKey) pay = (.error .generic, o)) := by
  have hsp : p.sp = osp.inter (.upper osp.rows) := hs.sp
  have hok : ∀ m, pay = .mat m → m.sp = osp.inter (.upper osp.rows) → (o.setitem (t.map .ofKey) pay).1 = .ok () ∧
      ∀ t' ∈ c.struct.traverseCanonicalIndex 1, (o.setitem (t.map .ofKey) pay).2.expr t' = if t' = t then some m else o.expr t' := by
    rintro m rfl hm
    exact C52_assign hb hwf h t ht m (p := some p) (by rw [hm, ← hsp]; exact .leaf hp)
  have hno : (¬ ∃ m, pay = .mat m ∧ m.sp = osp.inter (.upper osp.rows)) → o.setitem (t.map .ofKey) pay = (.error .generic, o) := by
    intro hn
    have := C52_reject hb hwf h (.leaf hp) [] (fun _ => rfl) pay (.inr (.inr fun m hm h' => hn ⟨m, hm, h'.trans hsp⟩))
    rw [List.append_nil] at this
    exact this
  refine ⟨⟨?_, ?_⟩, fun m hm h' => (hok m hm h').2, ?_⟩
  · intro h'
    by_contra hn
    rw [hno hn] at h'
    cases h'
  · rintro ⟨m, hm, h'⟩
    exact (hok m hm h').1
  · intro h'
    refine hno ?_
    rintro ⟨m, hm, h2⟩
    exact h' (hok m hm h2).1

/-- **C143** (reading in `struct_MX`): an entry of type 'symm' reads the symmetric matrix with the stored upper triangle. -/
theorem C143_read [Zero V] [Add V] [Sub V] (hv : ∀ x : V, x + x - x = x) {ls} (hb : Built c ls)
    (hwf : WFs c.struct.entries c.struct.order) (h : VReach c o)
    (hall : ∀ t ∈ c.struct.traverseCanonicalIndex 1, ∃ m, o.expr t = some m)
    (t : CIdx) (ht : t ∈ c.struct.traverseCanonicalIndex 1) (p : Prim) (osp : Sparsity) (hp : IsLeaf c.struct.entries t p)
    (hs : IsSymm p osp) (m : SMat V) (hm : o.expr t = some m) :
    ∃ r, o.getitem (t.map .ofKey) = .ok (.leaf r) ∧ r.WF ∧ r.sp = IsSymm.pattern osp ∧
      ∀ i j, i ≤ j → r.at' (i, j) = m.at' (i, j) ∧ r.at' (j, i) = m.at' (i, j) := by
  obtain ⟨l, h1, h2, h3⟩ := veccat_stored hb hwf h hall
  have hg := h.good hwf
  have ht' := ht
  rw [traverseCanonicalIndex_one] at ht'
  obtain ⟨k, hk⟩ := List.mem_iff_getElem?.1 ht'
  have hst := hm
  rw [hg.expr_at hwf hk] at hst
  obtain ⟨hmw, i, hi, hisp⟩ := hg.stored k t m hk (by
    cases hx : o.storage[k]? with
    | none => rw [hx] at hst; cases hst
    | some y => rw [hx] at hst; simp only [Option.join] at hst; rw [← hst]; rfl)
  obtain ⟨i', hi', _, _, _, hsp'⟩ := hb.part hwf (.leaf hp)
  rw [hi] at hi'
  cases hi'
  have hmsp : m.sp = p.sp := hisp.symm.trans hsp'
  obtain ⟨r, r1, r2, r3, r4⟩ := getitem_symm_of_stored hv hb hwf h2 hp hs hmw hmsp (h3 t ht m hm)
  exact ⟨r, by rw [VObj.getitem, h1, hg.cs]; exact r1, r2, r3, r4⟩

/-- **C143** (no round trip in `struct_MX`): `s['P'] = s['P']` raises for every entry of type 'symm' with an element above the diagonal,
and changes nothing. -/
theorem C143_roundtrip_refuted [Zero V] [Add V] [Sub V] (hv : ∀ x : V, x + x - x = x) {ls} (hb : Built c ls)
    (hwf : WFs c.struct.entries c.struct.order) (h : VReach c o)
    (hall : ∀ t ∈ c.struct.traverseCanonicalIndex 1, ∃ m, o.expr t = some m)
    (t : CIdx) (ht : t ∈ c.struct.traverseCanonicalIndex 1) (p : Prim) (osp : Sparsity) (hp : IsLeaf c.struct.entries t p)
    (hs : IsSymm p osp) (i j : ℕ) (hij : (i, j) ∈ osp.nz) (hlt : i < j) :
    ∃ r, o.getitem (t.map .ofKey) = .ok (.leaf r) ∧ o.setitem (t.map .ofKey) (.mat r) = (.error .generic, o) := by
  obtain ⟨m, hm⟩ := hall t ht
  obtain ⟨r, r1, _, r3, _⟩ := C143_read hv hb hwf h hall t ht p osp hp hs m hm
  refine ⟨r, r1, VObj.setitem_pattern hb hwf (h.good hwf).cs (.leaf hp) r ?_⟩
  intro heq
  have hmem : (j, i) ∈ p.sp.nz := by
    rw [← heq, r3, IsSymm.pattern, Sparsity.mem_ofPred]
    simp only [decide_eq_true_eq]
    have := hs.canon.mem hij
    have := hs.square
    exact ⟨by omega, .inr ⟨hij, hlt.le⟩⟩
  have := (hs.mem_sp.1 hmem).2
  simp only at this
  omega

end

/-! ## Example: a symmetric 2x2 expression next to a scalar -/

/-- `entry("x", expr=x)` and `entry("P", expr=P, type='symm')`. -/
def symmExDefs (x : V) (P : SMat V) : List (EntryDef V) :=
  [⟨.prim "x" [] ⟨.dense 1 1, false, none, none⟩, none, some (.mat (.scalar x))⟩, ⟨.prim "P" [] (symmPrim P.sp), none, some (.mat P)⟩]

theorem symmEx_isSymm (P : SMat V) (hP : P.WF) (hsq : P.sp.rows = P.sp.cols) :
    IsSymmDef (⟨.prim "P" [] (symmPrim P.sp), none, some (.mat P)⟩ : EntryDef V) (.mat P) [] P.sp :=
  ⟨.mat hP rfl, hsq, C143_entry _ _ _ _ (.mat hP rfl) hsq⟩

theorem symmEx_defs (x : V) (P : SMat V) (hP : P.WF) (hsq : P.sp.rows = P.sp.cols) : SymmDefs ((symmExDefs x P).map .one) none where
  nodup := by simp [symmExDefs, DefItem.defs, Entry.name]
  order := by rintro o ⟨⟩
  expr := by
    intro d hd
    simp only [symmExDefs, List.map_cons, List.map_nil, DefItem.defs, List.flatMap_cons, List.flatMap_nil, List.append_nil,
      List.cons_append, List.nil_append, List.mem_cons, List.not_mem_nil, or_false] at hd
    rcases hd with rfl | rfl
    · exact ⟨.mat (.scalar x), [], .dense 1 1, .inl (IsExprDef.stores ⟨grid_scalar x, C58_entry _ _ _ _ (grid_scalar x)⟩)⟩
    · exact ⟨.mat P, [], P.sp, .inr (symmEx_isSymm P hP hsq)⟩

theorem mem_symmExDefs (x : V) (P : SMat V) :
    (⟨.prim "P" [] (symmPrim P.sp), none, some (.mat P)⟩ : EntryDef V) ∈ ((symmExDefs x P).map DefItem.one).flatMap DefItem.defs := by
  simp [symmExDefs, DefItem.defs]

/-- C143: `struct_SX` takes the dense matrix [[1, 2], [2, 3]] and reads it back; `struct_MX` raises for the same definitions. -/
example : (∃ (o : Obj ℤ) (r : SMat ℤ), newSXExprs 0 ((symmExDefs 7 ⟨.dense 2 2, [1, 2, 2, 3]⟩).map .one) = .ok o ∧
      o.getitem [.str "P"] = .ok (.leaf r) ∧ r.at' (0, 0) = 1 ∧ r.at' (0, 1) = 2 ∧ r.at' (1, 0) = 2 ∧ r.at' (1, 1) = 3) ∧
    ∃ e, newVeccat ((symmExDefs (7 : ℤ) ⟨.dense 2 2, [1, 2, 2, 3]⟩).map .one) none = .error e := by
  have hP : (⟨.dense 2 2, [1, 2, 2, 3]⟩ : SMat ℤ).WF := ⟨Sparsity.dense_canon _ _, rfl⟩
  have h := symmEx_defs (7 : ℤ) _ hP rfl
  constructor
  · obtain ⟨o, h1, _, h2⟩ := C143_SX_partial (fun x : ℤ => by ring) 0 _ h
    obtain ⟨m, r, g1, g2, _, g3, _⟩ := h2 _ (mem_symmExDefs _ _) _ _ _ (symmEx_isSymm _ hP rfl) [] .nil
    cases g1
    refine ⟨o, r, h1, g2, ?_, ?_, ?_, ?_⟩
    · rw [(g3 0 0 le_rfl).1]; decide
    · rw [(g3 0 1 (by omega)).1]; decide
    · rw [(g3 0 1 (by omega)).2]; decide
    · rw [(g3 1 1 le_rfl).1]; decide
  · exact C143_MX_refuted _ none h _ (mem_symmExDefs _ _) _ _ _ (symmEx_isSymm _ hP rfl) 1 0 (by decide) (by omega)

/-- C143: `struct_MX` takes the upper triangle [[1, 2], [0, 3]], reads the symmetric matrix, and `s['P'] = s['P']` raises. -/
example : ∃ (o : VObj ℤ) (r : SMat ℤ), newVeccat ((symmExDefs (7 : ℤ) ⟨.upper 2, [1, 2, 3]⟩).map .one) none = .ok o ∧
    o.getitem [.str "P"] = .ok (.leaf r) ∧ r.at' (0, 0) = 1 ∧ r.at' (0, 1) = 2 ∧ r.at' (1, 0) = 2 ∧ r.at' (1, 1) = 3 ∧
    o.setitem [.str "P"] (.mat r) = (.error .generic, o) := by
  have hP : (⟨.upper 2, [1, 2, 3]⟩ : SMat ℤ).WF := ⟨Sparsity.ofPred_canon _ _ _, by decide⟩
  have h := symmEx_defs (7 : ℤ) _ hP rfl
  obtain ⟨h1, h2⟩ := C143_MX _ none h
  obtain ⟨o, ho⟩ := h1.2 (by
    intro d hd pay ds osp hx i j hij
    have he := hx.expr
    simp only [symmExDefs, List.map_cons, List.map_nil, DefItem.defs, List.flatMap_cons, List.flatMap_nil, List.append_nil,
      List.cons_append, List.nil_append, List.mem_cons, List.not_mem_nil, or_false] at hd
    rcases hd with rfl | rfl
    · have := hx.eq
      simp only [symmPrim, EntryDef.mk.injEq, Entry.prim.injEq, Prim.mk.injEq, Bool.false_eq_true, false_and, and_false] at this
    · cases he
      have hg := hx.grid
      cases hg with
      | mat _ hsp => rw [← hsp] at hij; exact (Sparsity.mem_upper.1 hij).1)
  obtain ⟨c, k1, k2, k3, k4⟩ := h2 o ho
  obtain ⟨c', ls, l1, l2, hwf, hb, _⟩ := h.struct
  rw [k1] at l1
  cases l1
  have hx := symmEx_isSymm (⟨.upper 2, [1, 2, 3]⟩ : SMat ℤ) hP rfl
  have he : Entry.prim "P" [] (symmPrim (.upper 2)) ∈ c.struct.entries := by
    rw [l2]; exact List.mem_map.2 ⟨_, mem_symmExDefs _ _, rfl⟩
  have hl : IsLeaf c.struct.entries [.str "P"] (symmPrim (.upper 2)) := .prim (ks := []) he .nil
  have ht : [.str "P"] ∈ c.struct.traverseCanonicalIndex 1 := by
    rw [traverseCanonicalIndex_one]; exact (mem_tops hwf).2 ⟨_, he, [], .nil, rfl⟩
  have hm := k3 _ (mem_symmExDefs _ _) _ _ _ (.inr hx) [] .nil
  obtain ⟨r, r1, _, _, r4⟩ := C143_read (fun x : ℤ => by ring) hb hwf k2 k4 _ ht _ _ hl hx.isSymm _ hm
  obtain ⟨r', s1, s2⟩ := C143_roundtrip_refuted (fun x : ℤ => by ring) hb hwf k2 k4 _ ht _ _ hl hx.isSymm 0 1 (by decide) (by omega)
  rw [r1] at s1
  cases s1
  refine ⟨o, r, ho, r1, ?_, ?_, ?_, ?_, s2⟩
  · rw [(r4 0 0 le_rfl).1]; decide
  · rw [(r4 0 1 (by omega)).1]; decide
  · rw [(r4 0 1 (by omega)).2]; decide
  · rw [(r4 1 1 le_rfl).1]; decide

end CE.St
