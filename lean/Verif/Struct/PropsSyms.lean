import Verif.Struct.PropsEntry
import Mathlib.Tactic.NormNum

/-! # `struct_symSX` with given symbols (C66) -/

namespace CE.St

variable {V : Type} [Zero V]

/-- An entry that `entry(name, sym=m)` defines: an element with the pattern of `m`, or a nested struct with at least one element
and as many scalars as the column `m`; with `type='symm'` the upper triangle. -/
inductive SymDef (m : SMat V) : Entry → Prop
  | prim (n ss) : SymDef m (.prim n [] ⟨m.sp, false, none, ss⟩)
  | symm (n p) : IsSymm p m.sp → SymDef m (.prim n [] p)
  | nested (n es o) {d p} : IsLeaf es d p → m.sp = .dense (countAll es) 1 → SymDef m (.nested n [] es o)

/-- A list of definitions for `struct_symSX`: distinct names, `order` names each once, no expressions, well-formed entries, the
given symbols belong to their entries. -/
structure SymDefs (arg : List (DefItem V)) (order : Option (List OrderItem)) : Prop where
  nodup : ((arg.flatMap DefItem.defs).map fun d => d.entry.name).Nodup
  order : ∀ o, order = some o → (∀ ds, DefItem.tup ds ∉ arg) ∧
    (o.flatMap OrderItem.names).Perm ((arg.flatMap DefItem.defs).map fun d => d.entry.name)
  expr : ∀ d ∈ arg.flatMap DefItem.defs, d.expr = none
  canon : ∀ d ∈ arg.flatMap DefItem.defs, ∀ n ds p, d.entry = .prim n ds p → p.sp.Canon
  sub : ∀ d ∈ arg.flatMap DefItem.defs, ∀ n ds es o, d.entry = .nested n ds es o → WFs es o
  sym : ∀ d ∈ arg.flatMap DefItem.defs, ∀ m, d.sym = some m → m.WF ∧ SymDef m d.entry

/-- `entry(name, sym=m)` for a symbolic matrix. -/
theorem symDef_sx (n : String) (m : SMat V) :
    newEntry { name := n, sym := some (.sx m true) } = .ok ⟨.prim n [] ⟨m.sp, false, none, none⟩, some m, none⟩ := rfl

/-- `entry(name, sym=s)` for a structured symbolic. -/
theorem symDef_structured (n : String) (s : Struct) (m : SMat V) :
    newEntry { name := n, sym := some (.structured s m) } = .ok ⟨.nested n [] s.entries s.order, some m, none⟩ := rfl

/-- `entry(name, sym=m, type='symm')` for a square symbolic matrix. -/
theorem symDef_symm (n : String) (m : SMat V) (h : m.sp.rows = m.sp.cols) :
    newEntry { name := n, sym := some (.sx m true), type := some "symm" } =
      .ok ⟨.prim n [] ⟨m.sp.inter (.upper m.sp.rows), true, some m.sp, none⟩, some m, none⟩ := by
  show Except.bind (typeStep (some "symm") m.sp none) _ = _
  rw [typeStep]
  simp only [ne_eq, not_true_eq_false, if_false, h]
  rfl

/-- The entry is not of type 'symm'. -/
def Entry.Untyped : Entry → Prop
  | .prim _ _ p => p.symm = false
  | .nested .. => True

omit [Zero V] in
theorem SymDef.part {m : SMat V} {e : Entry} (h : SymDef m e) {es : List Entry} (he : e ∈ es) :
    ∃ x sp, IsPart es [.str e.name] x sp ∧ sp.rows = m.sp.rows ∧ sp.cols = m.sp.cols ∧
      (e.Untyped → sp = m.sp ∧ ∀ p, x = some p → p.symm = false) := by
  cases h with
  | prim n ss => exact ⟨_, _, .leaf (.prim he .nil), rfl, rfl, fun _ => ⟨rfl, by rintro p ⟨⟩; rfl⟩⟩
  | symm n p hs =>
    exact ⟨_, _, .leaf (.prim he .nil), hs.rows, hs.cols.trans hs.square, fun hu => by
      rw [Entry.Untyped, hs.symm] at hu; cases hu⟩
  | nested n es' o hl hs =>
    refine ⟨none, _, .node (.top he .nil) hl, ?_, ?_, fun _ => ⟨hs.symm, by rintro p ⟨⟩⟩⟩ <;> rw [hs]

theorem storeSyms_ok {c : CS} {ls} (hb : Built c ls) (hwf : WFs c.struct.entries c.struct.order) :
    ∀ (ds : List (EntryDef V)) (master : List V), master.length = c.size → (ds.map fun d => d.entry.name).Nodup →
      (∀ d ∈ ds, d.entry ∈ c.struct.entries ∧ ∀ m, d.sym = some m → m.WF ∧ SymDef m d.entry) →
      ∃ master', storeSyms ds ⟨c, master, []⟩ = .ok ⟨c, master', []⟩ ∧ master'.length = c.size ∧
        (∀ d ∈ ds, ∀ m, d.sym = some m → ∀ i, dictGet c.map [.str d.entry.name] = some i → 
          gather master' i = .ok (.fill i.sp m.at')) ∧
        ∀ k, (∀ d ∈ ds, d.sym ≠ none → ∀ i, dictGet c.map [.str d.entry.name] = some i → k ∉ i.data) →
          master'[k]? = master[k]? := by
  intro ds
  induction ds with
  | nil => intro master hl _ _; exact ⟨master, rfl, hl, fun d hd => (by cases hd), fun _ _ => rfl⟩
  | cons d ds ih =>
    intro master hl hn hds
    rw [List.map_cons, List.nodup_cons] at hn
    have hds' : ∀ d ∈ ds, d.entry ∈ c.struct.entries ∧ ∀ m, d.sym = some m → m.WF ∧ SymDef m d.entry :=
      fun x hx => hds x (List.mem_cons_of_mem _ hx)
    cases hsym : d.sym with
    | none =>
      obtain ⟨master', h1, h2, h3, h4⟩ := ih master hl hn.2 hds'
      refine ⟨master', ?_, h2, ?_, ?_⟩
      · rw [storeSyms, hsym]; exact h1
      · intro x hx m hm
        rcases List.mem_cons.1 hx with rfl | hx
        · rw [hsym] at hm; cases hm
        · exact h3 x hx m hm
      · intro k hk
        exact h4 k fun x hx => hk x (List.mem_cons_of_mem _ hx)
    | some m =>
      obtain ⟨hd, hm⟩ := hds d List.mem_cons_self
      obtain ⟨hmw, hsd⟩ := hm m hsym
      obtain ⟨e, sp, hpart, hrow, hcol, _⟩ := hsd.part hd
      obtain ⟨i, hg, hw, hnd, hin, hsp⟩ := hb.part hwf hpart
      have hi : c.i (V := V) [.str d.entry.name] = .ok (.leaf i) := by
        have := c.i_part (V := V) hwf hpart [] (fun _ => rfl)
        rw [imCall_part e hg] at this
        exact this
      have hwr : written i m = some (i.sp.nz.map m.at') := by
        rw [written, if_pos ⟨by rw [hsp, hrow], by rw [hsp, hcol]⟩]
      obtain ⟨master1, a1, a2, a3, a4⟩ := assign_spec (master := master) hw.2 hnd (by rw [hl]; exact hin) hwr
      have a3' : gather master1 i = .ok (.fill i.sp m.at') := a3
      obtain ⟨master', h1, h2, h3, h4⟩ := ih master1 (a2.trans hl) hn.2 hds'
      refine ⟨master', ?_, h2, ?_, ?_⟩
      · rw [storeSyms, hsym]
        simp only [hi, a1]
        exact h1
      · intro x hx m' hm' i' hg'
        rcases List.mem_cons.1 hx with rfl | hx
        · rw [hsym] at hm'
          cases hm'
          rw [hg] at hg'
          cases hg'
          rw [← a3']
          apply gather_congr
          intro k hk
          refine h4 k fun y hy hys j hj => ?_
          obtain ⟨hye, hym⟩ := hds' y hy
          obtain ⟨m2, hm2⟩ := Option.ne_none_iff_exists'.1 hys
          obtain ⟨e2, _, hp2, _⟩ := (hym m2 hm2).2.part hye
          have hne : x.entry.name ≠ y.entry.name := fun h => hn.1 (h ▸ List.mem_map.2 ⟨y, hy, rfl⟩)
          refine hb.part_disjoint hwf hpart hp2 ?_ ?_ hg hj hk
          · intro h; simp at h; exact hne h
          · intro h; simp at h; exact hne h.symm
        · exact h3 x hx m' hm' i' hg'
      · intro k hk
        rw [h4 k fun x hx => hk x (List.mem_cons_of_mem _ hx)]
        exact a4 k (hk d List.mem_cons_self (by rw [hsym]; simp) i hg)

/-- What `struct_symSX` makes of such definitions. -/
theorem newSymSX_ok (fresh : ℕ → V) (arg : List (DefItem V)) (order : Option (List OrderItem)) (h : SymDefs arg order) :
    ∃ c ls master, CS.ofList (arg.map DefItem.item) order = .ok c ∧ newSymSX fresh arg order = .ok ⟨c, master, []⟩ ∧
      WFs c.struct.entries c.struct.order ∧ Built c ls ∧ (∀ d ∈ arg.flatMap DefItem.defs, d.entry ∈ c.struct.entries) ∧
      master.length = c.size ∧
      (∀ d ∈ arg.flatMap DefItem.defs, ∀ m, d.sym = some m → ∀ i, dictGet c.map [.str d.entry.name] = some i →
        gather master i = .ok (.fill i.sp m.at')) ∧
      ∀ d ∈ arg.flatMap DefItem.defs, d.sym = none → ∀ ks e sp, IsPart c.struct.entries (.str d.entry.name :: ks) e sp →
        ∀ i, dictGet c.map (.str d.entry.name :: ks) = some i → (i.data.map fun k => master.getD k 0) = i.data.map fresh := by
  obtain ⟨c, ls, h1, h2, hwf, hb, _⟩ : ∃ c ls, CS.ofList (arg.map DefItem.item) order = .ok c ∧
      c.struct = ⟨(arg.flatMap DefItem.defs).map EntryDef.entry, order.getD ((arg.map DefItem.item).map Item.orderItem)⟩ ∧
      WFs c.struct.entries c.struct.order ∧ Built c ls ∧ CS.ofStruct c.struct = .ok c := by
    have := ofList_built (arg.map DefItem.item) order
    rw [defs_entries, List.map_map] at this
    refine this h.nodup ?_ ?_ ?_
    · intro o ho
      refine ⟨?_, (h.order o ho).2⟩
      intro es hes
      obtain ⟨i, hi, hie⟩ := List.mem_map.1 hes
      cases i with
      | one e => cases hie
      | tup ds => exact (h.order o ho).1 ds hi
    · intro n ds p hp
      obtain ⟨d, hd, he⟩ := List.mem_map.1 hp
      exact h.canon d hd n ds p he
    · intro n ds es o hp
      obtain ⟨d, hd, he⟩ := List.mem_map.1 hp
      exact h.sub d hd n ds es o he
  have hmem : ∀ d ∈ arg.flatMap DefItem.defs, d.entry ∈ c.struct.entries := by
    intro d hd
    rw [h2]
    exact List.mem_map.2 ⟨d, hd, rfl⟩
  obtain ⟨master, k1, k2, k3, k4⟩ := storeSyms_ok hb hwf (arg.flatMap DefItem.defs) ((List.range c.size).map fresh) (by simp)
    h.nodup fun d hd => ⟨hmem d hd, h.sym d hd⟩
  refine ⟨c, ls, master, h1, ?_, hwf, hb, hmem, k2, k3, ?_⟩
  · unfold newSymSX
    rw [h1]
    show (if _ then _ else _) = _
    rw [if_neg, k1]
    rw [List.any_eq_true]
    rintro ⟨d, hd, hx⟩
    rw [h.expr d hd] at hx
    cases hx
  · intro d hd hsym ks e sp hp i hg
    obtain ⟨i', hg', _, _, hin, _⟩ := hb.part hwf hp
    rw [hg] at hg'
    cases hg'
    apply List.map_congr_left
    intro k hk
    have hkc := hin k hk
    rw [List.getD_eq_getElem?_getD, k4 k ?_]
    · simp [hkc]
    · intro d' hd' hs' j hj
      obtain ⟨m', hm'⟩ := Option.ne_none_iff_exists'.1 hs'
      obtain ⟨e', _, hp', _⟩ := (h.sym d' hd' m' hm').2.part (hmem d' hd')
      have hne : d.entry.name ≠ d'.entry.name := by
        intro hh
        have := List.inj_on_of_nodup_map h.nodup hd hd' hh
        subst this
        exact hs' hsym
      refine hb.part_disjoint hwf hp hp' ?_ ?_ hg hj hk
      · intro hh
        obtain ⟨t, ht⟩ := hh
        simp at ht
        exact hne ht.1
      · intro hh
        obtain ⟨t, ht⟩ := hh
        simp at ht
        exact hne ht.1.symm

variable [Add V] [Sub V]

/-- **C66**: `struct_symSX` of such entries succeeds.  An entry with given symbols and without type reads as these, and every element or nested
struct of an entry without reads as if no symbols were given at all: fresh symbols, in the order of the layout. -/
theorem C66_read_partial (fresh : ℕ → V) (arg : List (DefItem V)) (order : Option (List OrderItem)) (h : SymDefs arg order) :
    ∃ c master, CS.ofList (arg.map DefItem.item) order = .ok c ∧ newSymSX fresh arg order = .ok ⟨c, master, []⟩ ∧
      master.length = c.size ∧
      (∀ d ∈ arg.flatMap DefItem.defs, ∀ m, d.sym = some m → d.entry.Untyped →
        (⟨c, master, []⟩ : Obj V).getitem [.str d.entry.name] = .ok (.leaf m)) ∧
      ∀ d ∈ arg.flatMap DefItem.defs, d.sym = none → ∀ ks e sp, IsPart c.struct.entries (.str d.entry.name :: ks) e sp →
        (∀ p, e = some p → p.symm = false) →
        ∃ i : IMat, dictGet c.map (.str d.entry.name :: ks) = some i ∧ i.sp = sp ∧ i.data.Nodup ∧
          (⟨c, master, []⟩ : Obj V).getitem ((Key.str d.entry.name :: ks).map .ofKey) = .ok (.leaf ⟨sp, i.data.map fresh⟩) := by
  obtain ⟨c, ls, master, h1, hnew, hwf, hb, hmem, k2, k3, k4⟩ := newSymSX_ok fresh arg order h
  refine ⟨c, master, h1, hnew, k2, ?_, ?_⟩
  · intro d hd m hm hu
    obtain ⟨hmw, hsd⟩ := h.sym d hd m hm
    obtain ⟨e, sp, hp, _, _, hut⟩ := hsd.part (hmem d hd)
    obtain ⟨rfl, hs⟩ := hut hu
    obtain ⟨i, hg, hisp, _, _, hin, hr⟩ := getitem_plain hb hwf k2 hp hs
    have hgat := k3 d hd m hm i hg
    rw [gather_ok (by rw [k2]; exact hin), hisp] at hgat
    have : (⟨m.sp, i.data.map fun k => master.getD k 0⟩ : SMat V) = m :=
      (Except.ok.inj hgat).trans (SMat.eq_fill hmw).symm
    rw [this] at hr
    exact hr
  · intro d hd hsym ks e sp hp hs
    obtain ⟨i, hg, hisp, _, hnd, hin, hr⟩ := getitem_plain hb hwf k2 hp hs
    refine ⟨i, hg, hisp, hnd, ?_⟩
    rw [hr, k4 d hd hsym ks e sp hp i hg]

omit [Add V] [Sub V] in
/-- **C66** (rejection): an entry with an expression is not accepted. -/
theorem C66_reject (fresh : ℕ → V) (arg : List (DefItem V)) (order : Option (List OrderItem)) (d : EntryDef V)
    (hd : d ∈ arg.flatMap DefItem.defs) (hx : d.expr ≠ none) : ∃ e, newSymSX fresh arg order = .error e := by
  unfold newSymSX
  cases CS.ofList (arg.map DefItem.item) order with
  | error e => exact ⟨e, rfl⟩
  | ok c =>
    refine ⟨.generic, ?_⟩
    show (if _ then _ else _) = _
    rw [if_pos]
    rw [List.any_eq_true]
    exact ⟨d, hd, Option.isSome_iff_ne_none.2 hx⟩

omit [Zero V] [Add V] [Sub V] in
/-- **C66** (rejection): `struct_symMX` accepts neither expressions nor given symbols. -/
theorem C66_reject_MX [Zero V] (fresh : ℕ → V) (arg : List (DefItem V)) (order : Option (List OrderItem)) (d : EntryDef V)
    (hd : d ∈ arg.flatMap DefItem.defs) (hx : d.expr ≠ none ∨ d.sym ≠ none) : ∃ e, newSymMXExprs fresh arg order = .error e := by
  unfold newSymMXExprs
  cases CS.ofList (arg.map DefItem.item) order with
  | error e => exact ⟨e, rfl⟩
  | ok c =>
    refine ⟨.generic, ?_⟩
    show (if _ then _ else _) = _
    by_cases h : (arg.flatMap DefItem.defs).any (fun e => e.expr.isSome) = true
    · rw [if_pos h]
    · rw [if_neg h, if_pos]
      rw [List.any_eq_true] at h ⊢
      rcases hx with hx | hx
      · exact absurd ⟨d, hd, Option.isSome_iff_ne_none.2 hx⟩ h
      · exact ⟨d, hd, Option.isSome_iff_ne_none.2 hx⟩

/-- **C66 fails** with `type='symm'`: the constructor accepts a square symbol that is not symmetric, but then the entry never
reads as the given symbol. -/
theorem C66_refuted_symm (fresh : ℕ → V) (n : String) (m : SMat V) (hm : m.WF) (hsq : m.sp.rows = m.sp.cols) (i j : ℕ)
    (hij : m.at' (i, j) ≠ m.at' (j, i)) :
    ∃ d o, newEntry { name := n, sym := some (.sx m true), type := some "symm" } = .ok d ∧
      newSymSX fresh [.one d] none = .ok o ∧ o.getitem [.str n] ≠ .ok (.leaf m) := by
  have hs : IsSymm ⟨m.sp.inter (.upper m.sp.rows), true, some m.sp, none⟩ m.sp := ⟨rfl, rfl, hm.1, hsq, rfl⟩
  have hcan : (m.sp.inter (.upper m.sp.rows)).Canon := List.Sublist.trans List.filter_sublist hm.1
  have hd : SymDefs [DefItem.one (⟨.prim n [] ⟨m.sp.inter (.upper m.sp.rows), true, some m.sp, none⟩, some m, none⟩ : EntryDef V)]
      none := by
    refine ⟨by simp [DefItem.defs], by rintro o ⟨⟩, ?_, ?_, ?_, ?_⟩
    · intro d hd; simp [DefItem.defs] at hd; subst hd; rfl
    · intro d hd n ds p he; simp [DefItem.defs] at hd; subst hd; cases he; exact hcan
    · intro d hd n ds es o he; simp [DefItem.defs] at hd; subst hd; cases he
    · intro d hd m' he; simp [DefItem.defs] at hd; subst hd; cases he; exact ⟨hm, .symm n _ hs⟩
  obtain ⟨c, master, h1, h2, h3, _⟩ := C66_read_partial fresh _ _ hd
  refine ⟨_, _, symDef_symm n m hsq, h2, ?_⟩
  obtain ⟨c', ls, g1, g2, hwf, _, g3⟩ := ofList_built
    [Item.one (.prim n [] ⟨m.sp.inter (.upper m.sp.rows), true, some m.sp, none⟩)] none (by simp [Item.entries]) (by rintro o ⟨⟩)
    (by intro n ds p hp; simp [Item.entries] at hp; obtain ⟨_, _, rfl⟩ := hp; exact hcan)
    (by intro n ds es o hp; simp [Item.entries] at hp)
  have : c' = c := by
    have h1' : CS.ofList [Item.one (.prim n [] ⟨m.sp.inter (.upper m.sp.rows), true, some m.sp, none⟩)] none = .ok c := h1
    rw [g1] at h1'
    exact Except.ok.inj h1'
  subst this
  obtain ⟨r, hr, _, _, _, hsym, _⟩ := C55_read_symmetric c'.struct hwf c' g3 master h3 [.str n] _ m.sp
    (.prim (dims := []) (by rw [g2]; simp [Item.entries]) .nil) hs
  intro hh
  have hr : (⟨c', master, []⟩ : Obj V).getitem [.str n] = .ok (.leaf r) := hr
  rw [hr] at hh
  cases hh
  exact hij (hsym i j)

/-! ## Examples -/

/-- Symbols are numbers here: `x` consists of the symbols 100 and 101. -/
example : ∃ c master, newSymSX (V := ℚ) (fun k => k)
      [.one ⟨.prim "y" [] ⟨.dense 1 1, false, none, none⟩, none, none⟩,
        .one ⟨.prim "x" [] ⟨.dense 2 1, false, none, none⟩, some ⟨.dense 2 1, [100, 101]⟩, none⟩] none = .ok ⟨c, master, []⟩ ∧
    (⟨c, master, []⟩ : Obj ℚ).getitem [.str "x"] = .ok (.leaf ⟨.dense 2 1, [100, 101]⟩) := by
  obtain ⟨c, master, _, h2, _, h3, _⟩ := C66_read_partial (V := ℚ) (fun k => k)
      [.one ⟨.prim "y" [] ⟨.dense 1 1, false, none, none⟩, none, none⟩,
        .one ⟨.prim "x" [] ⟨.dense 2 1, false, none, none⟩, some ⟨.dense 2 1, [100, 101]⟩, none⟩] none (by
    refine ⟨by simp [DefItem.defs, Entry.name], by rintro o ⟨⟩, ?_, ?_, ?_, ?_⟩ <;> intro d hd <;>
      simp [DefItem.defs] at hd <;> rcases hd with rfl | rfl
    · rfl
    · rfl
    · rintro n ds p ⟨⟩; exact Sparsity.dense_canon _ _
    · rintro n ds p ⟨⟩; exact Sparsity.dense_canon _ _
    · rintro n ds es o ⟨⟩
    · rintro n ds es o ⟨⟩
    · rintro m ⟨⟩
    · rintro m ⟨⟩; exact ⟨⟨Sparsity.dense_canon _ _, rfl⟩, .prim _ _⟩)
  exact ⟨c, master, h2, h3 _ (List.mem_cons_of_mem _ List.mem_cons_self) _ rfl rfl⟩

/-- A 2 x 2 matrix of four different symbols. -/
example : ∃ d o, newEntry (V := ℚ) { name := "P", sym := some (.sx ⟨.dense 2 2, [1, 2, 3, 4]⟩ true), type := some "symm" } = .ok d ∧
    newSymSX (V := ℚ) (fun k => k) [.one d] none = .ok o ∧ o.getitem [.str "P"] ≠ .ok (.leaf ⟨.dense 2 2, [1, 2, 3, 4]⟩) :=
  C66_refuted_symm _ _ (⟨.dense 2 2, [1, 2, 3, 4]⟩ : SMat ℚ) ⟨Sparsity.dense_canon _ _, rfl⟩ rfl 0 1 (by
    show (3 : ℚ) ≠ 2
    norm_num)

/-- An entry with an expression: `struct_symSX` and `struct_symMX` raise; an entry with a symbol: `struct_symMX` raises. -/
example : (∃ e, newSymSX (V := ℚ) (fun k => k) [.one ⟨.prim "x" [] ⟨.dense 1 1, false, none, none⟩, none, some (.mat (.scalar 3))⟩] none =
      .error e) ∧
    ∃ e, newSymMXExprs (V := ℚ) (fun k => k) [.one ⟨.prim "x" [] ⟨.dense 1 1, false, none, none⟩, some (.scalar 3), none⟩] none =
      .error e :=
  ⟨C66_reject _ _ _ _ (by simp [DefItem.defs]; rfl) (by simp), C66_reject_MX _ _ _ _ (by simp [DefItem.defs]; rfl) (.inr (by simp))⟩

end CE.St
