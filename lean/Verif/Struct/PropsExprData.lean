import Verif.Struct.PropsExpr

/-! # Expressions and data together (C108) -/

namespace CE.St

variable {V : Type} [Zero V]

theorem storeExprsIn_fst (ds : List (EntryDef V)) (o : Obj V) :
    storeExprs ds o = match storeExprsIn ds o with
      | (.ok _, o') => .ok o'
      | (.error e, _) => .error e := by
  induction ds generalizing o with
  | nil => rfl
  | cons d ds ih =>
    rw [storeExprs, storeExprsIn]
    rcases o.setitem [.str d.entry.name] (d.expr.getD .none) with ⟨_ | _, o'⟩
    · rfl
    · exact ih o'

theorem newMatrixStruct_ok {c : CS} {data : SMat V} (hr : data.sp.rows = c.size) (hc : data.sp.cols = 1 ∨ data.sp.rows = 0) :
    newMatrixStruct c data = .ok ⟨c, data.toColumn, []⟩ := by
  rw [newMatrixStruct, if_neg (not_not.2 hr), if_neg]
  rintro ⟨h1, h2⟩
  rcases hc with h | h
  · exact h1 h
  · omega

/-- **C108** (success) `struct_SX(entries, data=D)` with a column `D` of the right length gives the struct that it gives without `data`:
nothing of `D` is left. `D` itself is overwritten: afterwards its elements are those of the new struct. -/
theorem C108_ignored (nan : V) (arg : List (DefItem V)) (h : ExprDefs arg none) (c : CS)
    (hc : CS.ofList (arg.map DefItem.item) none = .ok c) (data : SMat V) (hr : data.sp.rows = c.size)
    (hcol : data.sp.cols = 1 ∨ data.sp.rows = 0) :
    ∃ o, newSXExprs nan arg = .ok o ∧ newSXData arg data = (.ok o, ⟨.dense data.sp.rows data.sp.cols, o.master⟩) := by
  obtain ⟨c', ls, h1, h2, hwf, hb, h3⟩ := h.struct
  rw [hc] at h1
  cases h1
  have hnames : (exprItems (arg.flatMap DefItem.defs)).map Prod.fst = (arg.flatMap DefItem.defs).map fun d => d.entry.name := by
    rw [exprItems, List.map_map]; rfl
  have hkeys : c.struct.keys = (arg.flatMap DefItem.defs).map fun d => d.entry.name := by
    rw [Struct.keys, h2]
    simp only [Option.getD_none]
    rw [default_names, defs_entries, List.map_map]
    rfl
  have hany : ¬ ((arg.flatMap DefItem.defs).any fun e => e.expr.isNone) = true := by
    intro hany
    obtain ⟨d, hd, hn⟩ := List.any_eq_true.1 hany
    obtain ⟨pay, ds, sp, hx⟩ := h.expr d hd
    rw [hx.eq] at hn
    exact absurd hn (by simp)
  have hstore : ∀ o : Obj V, storeExprs (arg.flatMap DefItem.defs) o =
      assignKeys (exprItems (arg.flatMap DefItem.defs)) c.struct.keys o := by
    intro o
    rw [hkeys]
    apply storeExprs_assignKeys
    intro d hd
    exact dictGet_of_mem (by rw [hnames]; exact h.nodup) (List.mem_map.2 ⟨d, hd, rfl⟩)
  have hfit := exprFits h (c := c) (by rw [h2])
  obtain ⟨m1, k1, _, k2, _⟩ := assignKeys_cat (List.replicate c.size nan) c.struct hwf c h3 (by simp) _ _ hfit
  obtain ⟨m2, g1, _, g2, _⟩ := assignKeys_cat data.toColumn c.struct hwf c h3 (by simp [SMat.toColumn, hr]) _ _ hfit
  obtain rfl : m1 = m2 := k2.trans g2.symm
  rw [← hstore] at k1 g1
  refine ⟨⟨c, m1, []⟩, ?_, ?_⟩
  · unfold newSXExprs
    show Except.bind _ _ = _
    rw [hc]
    show (if _ then _ else _) = _
    rw [if_neg hany]
    exact k1
  · unfold newSXData
    rw [hc]
    simp only
    rw [if_neg hany, newMatrixStruct_ok hr hcol]
    simp only
    rw [storeExprsIn_fst] at g1
    generalize storeExprsIn (arg.flatMap DefItem.defs) _ = x at g1 ⊢
    obtain ⟨_ | _, o'⟩ := x
    · cases g1
    · cases g1; rfl

/-- **C108** (wrong shape) If `D` is not a column of the right length, the constructor raises and `D` is as before. -/
theorem C108_shape (arg : List (DefItem V)) (c : CS) (hc : CS.ofList (arg.map DefItem.item) none = .ok c) (data : SMat V)
    (h : data.sp.rows ≠ c.size ∨ data.sp.cols ≠ 1 ∧ 0 < data.sp.rows) : newSXData arg data = (.error .generic, data) := by
  unfold newSXData
  rw [hc]
  simp only
  split
  · rfl
  · have : newMatrixStruct c data = .error .generic := by
      rw [newMatrixStruct]
      by_cases h1 : data.sp.rows ≠ c.size
      · rw [if_pos h1]
      · rw [if_neg h1, if_pos (h.resolve_left h1)]
    rw [this]

/-- `entry("a", expr=x)` and `entry("b", expr=[y, m])` with a column `m` of two elements -/
def halfDefs (x y z w : V) : List (EntryDef V) :=
  [⟨.prim "a" [] ⟨.dense 1 1, false, none, none⟩, none, some (.mat (.scalar x))⟩,
   ⟨.prim "b" [2] ⟨.dense 1 1, false, none, none⟩, none, some (.list [.mat (.scalar y), .mat ⟨.dense 2 1, [z, w]⟩])⟩]

/-- **C108** (exception) If the expressions do not fit, the constructor raises but `D` is partly overwritten: for the entries `x` and
`[y, m]`, where `m` has another shape than `y`, `D = [p, q, r]` is `[x, y, r]` afterwards. -/
theorem C108_half_written [Add V] [Sub V] (x y z w p q r : V) :
    (∀ d ∈ halfDefs x y z w, newEntry { name := d.entry.name, expr := d.expr } = .ok d) ∧
    newSXData ((halfDefs x y z w).map .one) ⟨.dense 3 1, [p, q, r]⟩ = (.error .generic, ⟨.dense 3 1, [x, y, r]⟩) := by
  refine ⟨?_, ?_⟩
  · intro d hd
    simp only [halfDefs, List.mem_cons, List.not_mem_nil, or_false] at hd
    rcases hd with rfl | rfl
    · exact C58_heads _ _ _ _ (.mat _)
    · exact C58_heads _ _ _ _ (.list (.mat _))
  · obtain ⟨c, ls, h1, h2, hwf, hb, h3⟩ := ofList_built (((halfDefs x y z w).map DefItem.one).map DefItem.item) none
      (by simp [halfDefs, DefItem.item, Item.entries, Entry.name]) (by rintro o ⟨⟩) (by
        intro n d pr h
        simp only [halfDefs, DefItem.item, Item.entries, List.map_cons, List.map_nil, List.flatMap_cons, List.flatMap_nil,
          List.cons_append, List.nil_append, List.mem_cons, Entry.prim.injEq, List.not_mem_nil, or_false] at h
        rcases h with ⟨_, _, rfl⟩ | ⟨_, _, rfl⟩ <;> exact Sparsity.dense_canon 1 1) (by
        intro n d es o h
        simp [halfDefs, DefItem.item, Item.entries] at h)
    have hes : c.struct.entries = [.prim "a" [] ⟨.dense 1 1, false, none, none⟩, .prim "b" [2] ⟨.dense 1 1, false, none, none⟩] := by
      rw [h2]; rfl
    have hdefs : ((halfDefs x y z w).map DefItem.one).flatMap DefItem.defs = halfDefs x y z w := rfl
    have htops : tops c.struct.entries c.struct.order = [[.str "a"], [.str "b", .int 0], [.str "b", .int 1]] := by
      rw [h2]; rfl
    have pa : IsPart c.struct.entries [.str "a"] (some ⟨.dense 1 1, false, none, none⟩) (.dense 1 1) := by
      rw [hes]; exact .leaf (.prim (dims := []) (by simp) .nil)
    have pb : ∀ k : ℕ, k < 2 → IsPart c.struct.entries [.str "b", .int k] (some ⟨.dense 1 1, false, none, none⟩) (.dense 1 1) := by
      intro k hk
      rw [hes]; exact .leaf (.prim (dims := [2]) (by simp) (.cons ⟨k, hk, rfl⟩ .nil))
    have ns : ∀ pr : Prim, some (⟨.dense 1 1, false, none, none⟩ : Prim) = some pr → pr.symm = false := by rintro pr ⟨⟩; rfl
    have acc : ∀ {t : CIdx} (v : V), IsPart c.struct.entries t (some ⟨.dense 1 1, false, none, none⟩) (.dense 1 1) →
        Accepts c.struct.entries t (.mat (.scalar v)) (.dense 1 1) (SMat.scalar v).at' := fun v ht =>
      .plain ht ns (.mat _) ⟨Sparsity.dense_canon 1 1, rfl⟩ (.same rfl rfl)
    have one : ∀ (m : List V) {t : CIdx}, IsPart c.struct.entries t (some ⟨.dense 1 1, false, none, none⟩) (.dense 1 1) →
        (stored c m t).length = 1 := by
      intro m t ht
      obtain ⟨i, hg, hw, _, _, hsp⟩ := hb.part hwf ht
      simp only [stored, hg, List.length_map]
      rw [hw.2, hsp]
      rfl
    have hsz : c.size = 3 := by
      have h := congrArg List.length (hb.master_tops hwf (master := List.replicate c.size (0 : V)) (by simp))
      rw [htops] at h
      simp only [List.flatMap_cons, List.flatMap_nil, List.append_nil, List.length_append, List.length_replicate] at h
      have e1 := one (List.replicate c.size (0 : V)) pa
      have e2 := one (List.replicate c.size (0 : V)) (pb 0 (by omega))
      have e3 := one (List.replicate c.size (0 : V)) (pb 1 (by omega))
      simp only [Nat.cast_zero, Nat.cast_one] at e2 e3
      omega
    obtain ⟨m1, k1, k2, k3, k4⟩ := setAll_accepts hb hwf (prio := [])
      [([.str "a"], .mat (.scalar x), .dense 1 1, (SMat.scalar x).at'), ([.str "b", .int 0], .mat (.scalar y), .dense 1 1, (SMat.scalar y).at')]
      (by
        intro u hu
        simp only [List.mem_cons, List.not_mem_nil, or_false] at hu
        rcases hu with rfl | rfl
        · exact acc x pa
        · exact acc y (pb 0 (by omega)))
      (by simp) [p, q, r] (by rw [hsz]; rfl)
    have sa : stored c m1 [.str "a"] = [x] := k3 _ List.mem_cons_self
    have sb : stored c m1 [.str "b", .int 0] = [y] := k3 _ (List.mem_cons_of_mem _ List.mem_cons_self)
    have sc : stored c m1 [.str "b", .int 1] = stored c [p, q, r] [.str "b", .int 1] := by
      obtain ⟨i, hg, _⟩ := hb.part hwf (pb 1 (by omega))
      have hg : dictGet c.map [.str "b", .int 1] = some i := hg
      simp only [stored, hg]
      apply List.map_congr_left
      intro k hk
      rw [List.getD_eq_getElem?_getD, List.getD_eq_getElem?_getD, k4 k]
      intro u hu j hj hkj
      simp only [List.mem_cons, List.not_mem_nil, or_false] at hu
      rcases hu with rfl | rfl
      · exact hb.part_disjoint hwf (pb 1 (by omega)) pa (by simp) (by simp) hg hj hk hkj
      · exact hb.part_disjoint hwf (pb 1 (by omega)) (pb 0 (by omega)) (by simp) (by simp) hg hj hk hkj
    have hm : m1 = [x, y, r] := by
      have h0 := hb.master_tops hwf (master := [p, q, r]) (by rw [hsz]; rfl)
      have h := hb.master_tops hwf k2
      rw [htops] at h h0
      simp only [List.flatMap_cons, List.flatMap_nil, List.append_nil] at h h0
      rw [sa, sb, sc] at h
      obtain ⟨u1, e1⟩ := List.length_eq_one_iff.1 (one [p, q, r] pa)
      obtain ⟨u2, e2⟩ := List.length_eq_one_iff.1 (one [p, q, r] (pb 0 (by omega)))
      obtain ⟨u3, e3⟩ := List.length_eq_one_iff.1 (one [p, q, r] (pb 1 (by omega)))
      simp only [Nat.cast_zero, Nat.cast_one] at e2 e3
      rw [e1, e2, e3] at h0
      rw [e3] at h
      simp only [List.cons_append, List.nil_append, List.cons.injEq, and_true] at h0
      rw [h, h0.2.2]
      rfl
    subst hm
    have c3 : (⟨c, [x, y, r], []⟩ : Obj V).setitem [.str "b", .int 1] (.mat ⟨.dense 2 1, [z, w]⟩) =
        (.error .generic, ⟨c, [x, y, r], []⟩) := by
      refine C44_shape c.struct hwf c h3 [x, y, r] [.str "b", .int 1] _ _ (pb 1 (by omega)) ns _ _ (.mat _) ?_
      intro f hf
      cases hf <;> simp_all [Sparsity.dense]
    have hst : storeExprsIn (halfDefs x y z w) (⟨c, [p, q, r], []⟩ : Obj V) = (.error .generic, ⟨c, [x, y, r], []⟩) := by
      have d2 := setitem_dist (V := V) c hwf .root (e := .prim "b" [2] ⟨.dense 1 1, false, none, none⟩) (by rw [hes]; simp) (ds2 := [2])
        [] [] rfl .nil (.list [.mat (.scalar y), .mat ⟨.dense 2 1, [z, w]⟩]) (by
          intro i hi
          have : i = 0 ∨ i = 1 := by omega
          rcases this with rfl | rfl
          · exact ⟨_, rfl, trivial⟩
          · exact ⟨_, rfl, trivial⟩)
      have d2 : ∀ o : Obj V, o.cs = c → o.setitem [.str "b"] (.list [.mat (.scalar y), .mat ⟨.dense 2 1, [z, w]⟩]) =
          o.setAll [([.str "b", .int 0], .mat (.scalar y)), ([.str "b", .int 1], .mat ⟨.dense 2 1, [z, w]⟩)] := d2
      have k1 : (⟨c, [p, q, r], []⟩ : Obj V).setAll [([.str "a"], .mat (.scalar x)), ([.str "b", .int 0], .mat (.scalar y))] =
          (.ok (), ⟨c, [x, y, r], []⟩) := k1
      obtain ⟨_, m', _, _, _, g4, _⟩ := accepts_write hb hwf (master := [p, q, r]) (by rw [hsz]; rfl) (prio := []) (acc x pa)
      have g4 : (⟨c, [p, q, r], []⟩ : Obj V).setitem [.str "a"] (.mat (.scalar x)) = (.ok (), ⟨c, m', []⟩) := g4
      rw [Obj.setAll, g4] at k1
      simp only [Obj.setAll] at k1
      simp only [halfDefs, storeExprsIn, Entry.name, Option.getD_some]
      rw [g4]
      simp only
      rw [d2 _ rfl, Obj.setAll]
      generalize (⟨c, m', []⟩ : Obj V).setitem [.str "b", .int 0] (.mat (.scalar y)) = u at k1 ⊢
      obtain ⟨_ | _, o'⟩ := u
      · cases k1
      · cases k1
        simp only [Obj.setAll]
        rw [c3]
    unfold newSXData
    rw [h1]
    simp only
    rw [hdefs, if_neg (by simp [halfDefs]), newMatrixStruct_ok (by rw [hsz]; rfl) (.inl rfl)]
    show (match storeExprsIn (halfDefs x y z w) (⟨c, [p, q, r], []⟩ : Obj V) with
      | (.ok _, o') => _
      | (.error e, o') => ((.error e : Except PyErr (Obj V)), (⟨.dense 3 1, o'.master⟩ : SMat V))) = _
    rw [hst]

/-- The numbers 9 of the data do not survive. -/
example : ∃ o : Obj ℤ, newSXData ((exDefs (5 : ℤ) 1 2 3 4).map .one) ⟨.dense 5 1, [9, 9, 9, 9, 9]⟩ =
    (.ok o, ⟨.dense 5 1, [5, 1, 2, 3, 4]⟩) ∧ o.master = [5, 1, 2, 3, 4] := by
  have h := exDefs_ok (5 : ℤ) 1 2 3 4 none (by rintro o ⟨⟩)
  obtain ⟨c, master, h1, h2, h3, _, h4⟩ := C58_SX_cat (0 : ℤ) _ h
  have h5 := h4 _ rfl (exDefs_def 5 1 2 3 4)
  have hsz : c.size = 5 := by rw [← h3, h5]; rfl
  obtain ⟨o, k1, k2⟩ := C108_ignored (0 : ℤ) _ h c h1 ⟨.dense 5 1, [9, 9, 9, 9, 9]⟩ (by rw [hsz]; rfl) (.inl rfl)
  rw [h2] at k1
  cases k1
  rw [h5] at k2
  exact ⟨_, k2, rfl⟩

/-- A row instead of a column is refused and not changed. -/
example : newSXData ((exDefs (5 : ℤ) 1 2 3 4).map .one) ⟨.dense 1 5, [9, 9, 9, 9, 9]⟩ = (.error .generic, ⟨.dense 1 5, [9, 9, 9, 9, 9]⟩) := by
  have h := exDefs_ok (5 : ℤ) 1 2 3 4 none (by rintro o ⟨⟩)
  obtain ⟨c, master, h1, h2, h3, _, h4⟩ := C58_SX_cat (0 : ℤ) _ h
  exact C108_shape _ c h1 _ (.inr ⟨by decide, by decide⟩)

end CE.St
