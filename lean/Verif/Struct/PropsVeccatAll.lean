import Verif.Struct.PropsAll

/-! # Ellipsis and dicts in power indices of `struct_MX`, and copying one `struct_MX` to another: C144 -/

namespace CE.St

variable {V : Type}

theorem VObj.setitem_node (o : VObj V) (hwf : WFs o.cs.struct.entries o.cs.struct.order) {a es' o'}
    (h : IsAt o.cs.struct.entries o.cs.struct.order a es' o') (rest : List (PIdx (PyFn V))) (pay : Pay V) :
    o.setitem (a.map .ofKey ++ rest) pay =
      (let r := goStruct (injectDisp o.cs.map o.mapping) (o'.flatMap OrderItem.names)
        (travTable (injectDisp o.cs.map o.mapping) es') rest false a pay o.storage
      (gen (r.1.map fun _ => ()), { o with storage := r.2 })) := by
  rw [VObj.setitem, Struct.traverse_fst, Struct.keys, goStruct_at _ hwf h]
  simp only [List.nil_append]
  rcases goStruct (injectDisp o.cs.map o.mapping) (o'.flatMap OrderItem.names) (travTable (injectDisp o.cs.map o.mapping) es')
    rest false a pay o.storage with ⟨r, m⟩
  cases r <;> rfl

/-- A loop of writes. -/
theorem VObj.setLoop {α R : Type} (o : VObj V) (l : List α) (g : α → M (List (Option (SMat V))) R)
    (pi : α → List (PIdx (PyFn V))) (pay : α → Pay V)
    (h : ∀ a ∈ l, ∀ m, ({ o with storage := m } : VObj V).setitem (pi a) (pay a) =
      (gen ((g a m).1.map fun _ => ()), { o with storage := (g a m).2 })) (m : List (Option (SMat V))) :
    (gen ((M.forEach l g m).1.map fun _ => ()), ({ o with storage := (M.forEach l g m).2 } : VObj V)) =
      ({ o with storage := m } : VObj V).setAll (l.map fun a => (pi a, pay a)) := by
  induction l generalizing m with
  | nil => rfl
  | cons a l ih =>
    rw [List.map_cons, VObj.setAll, h a List.mem_cons_self, M.forEach, M.bind]
    rcases hg : g a m with ⟨r, m1⟩
    cases r with
    | error e => rfl
    | ok b =>
      simp only [Except.map, gen]
      rw [← ih (fun a ha => h a (List.mem_cons_of_mem _ ha)) m1, M.bind]
      rcases M.forEach l g m1 with ⟨r', m2⟩
      cases r' <;> rfl

theorem VObj.writeLoop {α β γ : Type} (o : VObj V) (l : List α) (g : α → M (List (Option (SMat V))) β) (f : List β → γ)
    (pi : α → List (PIdx (PyFn V))) (pay : α → Pay V)
    (h : ∀ a ∈ l, ∀ m, ({ o with storage := m } : VObj V).setitem (pi a) (pay a) =
      (gen ((g a m).1.map fun _ => ()), { o with storage := (g a m).2 })) :
    (gen ((M.bind (M.forEach l g) (fun r => M.pure (f r)) o.storage).1.map fun _ => ()),
      ({ o with storage := (M.bind (M.forEach l g) (fun r => M.pure (f r)) o.storage).2 } : VObj V)) =
      o.setAll (l.map fun a => (pi a, pay a)) := by
  have := VObj.setLoop o l g pi pay h o.storage
  rw [bind_pure_run, ← this]
  rcases M.forEach l g o.storage with ⟨r, m⟩
  cases r <;> rfl

/-- **C144** (writing a list): `s[a, ..., rest] = L` on a `struct_MX` performs `s[a, k, rest] = L[i]` for all entries `k` one after
another up to the first exception, `i` being the position of `k` in the layout. -/
theorem C144_write_ellipsis (o : VObj V) (hwf : WFs o.cs.struct.entries o.cs.struct.order) (a : CIdx) (es' : List Entry)
    (o' : List OrderItem) (h : IsAt o.cs.struct.entries o.cs.struct.order a es' o') (rest : List (PIdx (PyFn V)))
    (L : List (Pay V)) (v : ℕ → Pay V) (hL : ∀ i < (o'.flatMap OrderItem.names).length, L[i]? = some (v i)) :
    o.setitem (a.map .ofKey ++ .ellipsis :: rest) (.list L) =
      o.setAll ((o'.flatMap OrderItem.names).zipIdx.map fun ki => (a.map .ofKey ++ .str ki.1 :: rest, v ki.2)) := by
  rw [o.setitem_node hwf h]
  simp only
  rw [goStruct_ellipsis, M.forEach_congr _ _ (fun ki => goStruct (injectDisp o.cs.map o.mapping) (o'.flatMap OrderItem.names)
    (travTable (injectDisp o.cs.map o.mapping) es') (.str ki.1 :: rest) false a (v ki.2))]
  · apply VObj.writeLoop
    intro ki _ m
    exact ({ o with storage := m } : VObj V).setitem_node hwf h _ _
  · intro ki hki
    have hi := List.snd_lt_of_mem_zipIdx hki
    have hL := hL ki.2 (by simpa using hi)
    have hlt := (List.getElem?_eq_some_iff.1 hL).1
    have : payloadUnpack (.list L) (.int ki.2) = .ok (v ki.2) := by
      rw [payloadUnpack, if_neg (by omega), pyIndex]
      simp only [if_neg (show ¬ ((ki.2 : ℕ) : ℤ) < 0 by omega), Int.toNat_natCast, hL]
    rw [this]
    rfl

/-- **C144** (writing a dict): `s[a, {}, rest] = d` on a `struct_MX` performs `s[a, k, rest] = d[k]` for the keys of `d`, in the
order of `d`, up to the first exception. -/
theorem C144_write_dict (o : VObj V) (hwf : WFs o.cs.struct.entries o.cs.struct.order) (a : CIdx) (es' : List Entry)
    (o' : List OrderItem) (h : IsAt o.cs.struct.entries o.cs.struct.order a es' o') (rest : List (PIdx (PyFn V)))
    (items : List (String × Pay V)) :
    o.setitem (a.map .ofKey ++ .dict :: rest) (.dict items) =
      o.setAll (items.map fun kv => (a.map .ofKey ++ .str kv.1 :: rest, kv.2)) := by
  rw [o.setitem_node hwf h]
  simp only
  rw [goStruct_dict_items]
  apply VObj.writeLoop
  intro ki _ m
  rw [({ o with storage := m } : VObj V).setitem_node hwf h]
  simp only
  rw [bind_pure_run]
  rcases goStruct (injectDisp o.cs.map o.mapping) (o'.flatMap OrderItem.names) (travTable (injectDisp o.cs.map o.mapping) es')
    (.str ki.1 :: rest) false a ki.2 m with ⟨r, m'⟩
  cases r <;> rfl

/-! ## Copying -/

/-- Assigning to entries nested lists of expressions with the declared patterns stores these and changes nothing else. -/
theorem VObj.setAll_entries {c : CS} {ls} (hb : Built c ls) (hwf : WFs c.struct.entries c.struct.order)
    (x : Entry → List ℕ → SMat V) : ∀ (E : List Entry) {o : VObj V}, VReach c o → (E.map Entry.name).Nodup →
      (∀ e ∈ E, e ∈ c.struct.entries ∧ ∀ is, List.Forall₂ (· < ·) is e.dims →
        (x e is).WF ∧ ∃ p, IsPart c.struct.entries (.str e.name :: natKeys is) p (x e is).sp) →
      ∃ o', o.setAll (E.map fun e => ([.str e.name], (nest e.dims (x e)).toPay)) = (.ok (), o') ∧ VReach c o' ∧
        (∀ e ∈ E, ∀ is, List.Forall₂ (· < ·) is e.dims → o'.expr (.str e.name :: natKeys is) = some (x e is)) ∧
        ∀ e ∈ c.struct.entries, e.name ∉ E.map Entry.name → ∀ ks, InDims ks e.dims →
          o'.expr (.str e.name :: ks) = o.expr (.str e.name :: ks)
  | [], o, ho, _, _ => ⟨o, rfl, ho, by simp, fun _ _ _ _ _ => rfl⟩
  | d :: E, o, ho, hnd, h => by
    rw [List.map_cons, List.nodup_cons] at hnd
    obtain ⟨hd, hx⟩ := h d List.mem_cons_self
    have hg := ho.good hwf
    let ws : List (CIdx × SMat V) := (tuples d.dims).map fun is => (.str d.name :: natKeys is, x d is)
    have hset : o.setitem [.str d.name] (nest d.dims (x d)).toPay = o.setAll (ws.map fun w => (w.1.map .ofKey, .mat w.2)) := by
      rw [o.setitem_dist (by rw [hg.cs]; exact hwf) (by rw [hg.cs]; exact hd) _ (nest_covers _ _).1, List.map_map]
      congr 1
      apply List.map_congr_left
      intro is his
      simp only [Function.comp, (nest_covers d.dims (x d)).2 is (mem_tuples.1 his)]
      rfl
    obtain ⟨o1, h1, h2, h3, h4⟩ := VObj.setAll_assign hb hwf ws ho (by
        rw [List.map_map]
        exact (tuples_nodup d.dims).map fun a b hab => natKeys_inj (List.cons.inj hab).2) (by
        intro w hw
        obtain ⟨is, his, rfl⟩ := List.mem_map.1 hw
        obtain ⟨g1, g2⟩ := hx is (mem_tuples.1 his)
        exact ⟨(mem_tops hwf).2 ⟨d, hd, _, natKeys_inDims (mem_tuples.1 his), rfl⟩, g2, g1⟩)
    obtain ⟨o', h5, h6, h7, h8⟩ := VObj.setAll_entries hb hwf x E h2 hnd.2 fun v hv => h v (List.mem_cons_of_mem _ hv)
    refine ⟨o', ?_, h6, ?_, ?_⟩
    · rw [List.map_cons, VObj.setAll, hset, h1]
      exact h5
    · intro e he is his
      rcases List.mem_cons.1 he with rfl | he
      · rw [h8 _ hd hnd.1 _ (natKeys_inDims his)]
        exact h3 (_, _) (List.mem_map.2 ⟨is, mem_tuples.2 his, rfl⟩)
      · exact h7 e he is his
    · intro e he hn ks hks
      rw [List.map_cons, List.mem_cons, not_or] at hn
      rw [h8 e he hn.2 ks hks]
      refine h4 _ ((mem_tops hwf).2 ⟨e, he, ks, hks, rfl⟩) ?_
      intro hmem
      obtain ⟨w, hw, hw'⟩ := List.mem_map.1 hmem
      obtain ⟨is, _, rfl⟩ := List.mem_map.1 hw
      have := (List.cons.inj hw').1
      injection this with this
      exact hn.1 this.symm

/-- Objects of the same struct with the same expressions are equal. -/
theorem VGood.ext {c : CS} (hwf : WFs c.struct.entries c.struct.order) {o o' : VObj V} (h : VGood c o) (h' : VGood c o')
    (he : ∀ t ∈ tops c.struct.entries c.struct.order, o.expr t = o'.expr t) : o = o' := by
  have hs : o.storage = o'.storage := by
    rw [h.storage_eq hwf, h'.storage_eq hwf]
    exact List.map_congr_left he
  have hc := h.cs.trans h'.cs.symm
  have hm := h.mapping.trans h'.mapping.symm
  cases o
  cases o'
  simp only at hs hc hm
  rw [hs, hc, hm]

section
variable [Zero V] [Add V] [Sub V] {c : CS} {o : VObj V}

/-- What is read from the entries of a complete `struct_MX`: nested lists of the stored expressions. -/
theorem VObj.read_entries {ls} (hb : Built c ls) (hwf : WFs c.struct.entries c.struct.order) (h : VReach c o)
    (hall : ∀ t ∈ c.struct.traverseCanonicalIndex 1, ∃ m, o.expr t = some m) :
    ∃ x : Entry → List ℕ → SMat V, ∀ e ∈ c.struct.entries, (∀ n d p, e = .prim n d p → p.symm = false) → o.getitem [.str e.name] = .ok (nest e.dims (x e)) ∧
      ∀ is, List.Forall₂ (· < ·) is e.dims → o.expr (.str e.name :: natKeys is) = some (x e is) ∧ (x e is).WF ∧
        ∃ p, IsPart c.struct.entries (.str e.name :: natKeys is) p (x e is).sp := by
  have hg := h.good hwf
  obtain ⟨l, g1, g2, g3⟩ := (C52_cat hb hwf h).1 hall
  have key : ∀ e ∈ c.struct.entries, (∀ n d p, e = .prim n d p → p.symm = false) → ∀ is, List.Forall₂ (· < ·) is e.dims → ∃ m : SMat V,
      (⟨c, l, []⟩ : Obj V).getitem ((.str e.name :: natKeys is : CIdx).map .ofKey) = .ok (.leaf m) ∧
      o.expr (.str e.name :: natKeys is) = some m ∧ m.WF ∧ ∃ p, IsPart c.struct.entries (.str e.name :: natKeys is) p m.sp := by
    intro e he hs is his
    have hks := natKeys_inDims his
    have ht : (.str e.name :: natKeys is : CIdx) ∈ tops c.struct.entries c.struct.order := (mem_tops hwf).2 ⟨e, he, _, hks, rfl⟩
    have ht' : (.str e.name :: natKeys is : CIdx) ∈ c.struct.traverseCanonicalIndex 1 := by
      rw [traverseCanonicalIndex_one]; exact ht
    obtain ⟨m, hm⟩ := hall _ ht'
    obtain ⟨k, hk⟩ := List.mem_iff_getElem?.1 ht
    have hst := hm
    rw [hg.expr_at hwf hk] at hst
    obtain ⟨hmw, i, hi, hisp⟩ := hg.stored k _ m hk (by
      rcases hx : o.storage[k]? with _ | _ | m' <;> rw [hx] at hst <;> simp_all)
    have hpart : ∃ p sp, IsPart c.struct.entries (.str e.name :: natKeys is) p sp ∧ ∀ q, p = some q → q.symm = false := by
      cases e with
      | prim n d p => exact ⟨_, _, .leaf (.prim he hks), by rintro _ ⟨⟩; exact hs n d p rfl⟩
      | nested n d es' o' =>
        obtain ⟨a, p, hp⟩ := hb.get_isPart hwf hi
        have hat : IsAt c.struct.entries c.struct.order (.str n :: natKeys is) es' o' := .node (.top he hks)
        exact ⟨_, _, .node (.top he hks) (hat.leaf_inv hwf hp), by rintro _ ⟨⟩⟩
    obtain ⟨p, sp, hp, hp'⟩ := hpart
    have hsp : sp = m.sp := by
      obtain ⟨i', hi', _, _, _, hsp⟩ := hb.part hwf hp
      rw [hi] at hi'
      cases hi'
      rw [← hsp, hisp]
    subst hsp
    have hr := C52_read hb hwf h hall _ ht' hp hp' m hm
    rw [VObj.getitem, g1, hg.cs] at hr
    exact ⟨m, hr, hm, hmw, p, hp⟩
  haveI : Inhabited (SMat V) := ⟨.scalar 0⟩
  choose! x h1 h2 h3 h4 using key
  refine ⟨x, fun e he hs => ⟨?_, fun is his => ⟨h2 e he hs is his, h3 e he hs is his, h4 e he hs is his⟩⟩⟩
  rw [VObj.getitem, g1, hg.cs]
  exact getitem_nest (⟨c, l, []⟩ : Obj V) hwf (a := []) .root he [] [] rfl .nil _ fun is his => h1 e he hs is his

/-- **C144** (copying): for every `struct_MX` `s` whose expressions are all assigned, `s[...]` and `s[{}]` can be read, and
assigning what was read to `t[...]` (or `t[{}]`) of any `struct_MX` `t` of the same layout, complete or not, makes `t` equal
to `s`: not only the concatenated vector but every stored expression.
Missing: entries of type 'symm', for which the claim is false (`C144_copy` in `PropsVeccatSymm.lean` says exactly when). -/
theorem C144_copy_partial {ls} (hb : Built c ls) (hwf : WFs c.struct.entries c.struct.order) (h : VReach c o)
    (hall : ∀ t ∈ c.struct.traverseCanonicalIndex 1, ∃ m, o.expr t = some m)
    (hs : ∀ n d p, Entry.prim n d p ∈ c.struct.entries → p.symm = false) :
    (∃ t, o.getitem [.ellipsis] = .ok t ∧ ∀ o', VReach c o' → o'.setitem [.ellipsis] t.toPay = (.ok (), o)) ∧
    ∃ t, o.getitem [.dict] = .ok t ∧ ∀ o', VReach c o' → o'.setitem [.dict] t.toPay = (.ok (), o) := by
  have hg := h.good hwf
  obtain ⟨x, hx⟩ := VObj.read_entries hb hwf h hall
  replace hx := fun e he => hx e he (fun n d p heq => hs n d p (heq ▸ he))
  obtain ⟨l, g1, g2, g3⟩ := (C52_cat hb hwf h).1 hall
  have hread : ∀ e ∈ c.struct.entries, (⟨c, l, []⟩ : Obj V).getitem [.str e.name] = .ok (nest e.dims (x e)) := by
    intro e he
    have := (hx e he).1
    rw [VObj.getitem, g1, hg.cs] at this
    exact this
  have hwrite : ∀ o', VReach c o' → ∀ E : List Entry, E.Perm c.struct.entries →
      o'.setAll (E.map fun e => ([.str e.name], (nest e.dims (x e)).toPay)) = (.ok (), o) := by
    intro o' ho' E hE
    obtain ⟨o1, k1, k2, k3, _⟩ := VObj.setAll_entries hb hwf x E ho' ((hE.map _).nodup_iff.2 hwf.nodup) (by
      intro e he
      exact ⟨hE.mem_iff.1 he, fun is his => ((hx e (hE.mem_iff.1 he)).2 is his).2⟩)
    rw [k1]
    congr 1
    refine (k2.good hwf).ext hwf hg ?_
    intro t ht
    obtain ⟨e, he, ks, hks, rfl⟩ := (mem_tops hwf).1 ht
    obtain ⟨is, his, rfl⟩ := inDims_natKeys hks
    rw [k3 e (hE.mem_iff.2 he) is his, ((hx e he).2 is his).1]
  constructor
  · obtain ⟨E, hE, hEk⟩ := perm_map_exists Entry.name hwf.perm c.struct.entries rfl
    have hkeys : c.struct.order.flatMap OrderItem.names = E.map Entry.name := hEk.symm
    refine ⟨.list (E.map fun e => nest e.dims (x e)), ?_, ?_⟩
    · have := C63_read_ellipsis (⟨c, l, []⟩ : Obj V) hwf [] _ _ .root []
      rw [List.map_nil, List.nil_append] at this
      rw [VObj.getitem, g1, hg.cs]
      show (⟨c, l, []⟩ : Obj V).getitem _ = _
      rw [this]
      simp only
      rw [hkeys, List.mapM_map, except_mapM_ok E _ (fun e => nest e.dims (x e))]
      · rfl
      · intro e he
        exact hread e (hE.mem_iff.1 he)
    · intro o' ho'
      have hc' := (ho'.good hwf).cs
      have := C144_write_ellipsis o' (by rw [hc']; exact hwf) [] _ _ .root [] (toPays (E.map fun e => nest e.dims (x e)))
        (fun i => (((E.map fun e => nest e.dims (x e)).map Tree.toPay)[i]?).getD .none) (by
          intro i hi
          simp only [hc', hkeys, List.length_map] at hi
          rw [toPays_eq, List.getElem?_eq_getElem (by simpa using hi)]
          rfl)
      rw [List.map_nil, List.nil_append] at this
      rw [Tree.toPay, this, ← hwrite o' ho' E hE]
      congr 1
      rw [hc', hkeys]
      apply List.ext_getElem
      · simp
      · intro i g1 g2
        simp at g2
        simp [g2]
  · refine ⟨.dict (c.struct.entries.map fun e => (e.name, nest e.dims (x e))), ?_, ?_⟩
    · have := C63_read_dict (⟨c, l, []⟩ : Obj V) hwf [] _ _ .root []
      rw [List.map_nil, List.nil_append] at this
      rw [VObj.getitem, g1, hg.cs]
      show (⟨c, l, []⟩ : Obj V).getitem _ = _
      rw [this, except_mapM_ok _ _ (fun e => (e.name, nest e.dims (x e)))]
      · rfl
      · intro e he
        rw [List.nil_append, hread e he]
        rfl
    · intro o' ho'
      have hc' := (ho'.good hwf).cs
      have := C144_write_dict o' (by rw [hc']; exact hwf) [] _ _ .root []
        (toItems (c.struct.entries.map fun e => (e.name, nest e.dims (x e))))
      rw [List.map_nil, List.nil_append] at this
      rw [Tree.toPay, this, ← hwrite o' ho' _ (List.Perm.refl _), toItems_eq, List.map_map, List.map_map]
      rfl

/-- **C144** (copying one entry): `t[name] = s[name]` copies all expressions of this entry and leaves the others of `t`.
Missing: entries of type 'symm' (`C143_roundtrip_refuted`). -/
theorem C144_entry_partial {ls} (hb : Built c ls) (hwf : WFs c.struct.entries c.struct.order) (h : VReach c o)
    (hall : ∀ t ∈ c.struct.traverseCanonicalIndex 1, ∃ m, o.expr t = some m)
    (e : Entry) (he : e ∈ c.struct.entries) (hs : ∀ n d p, e = .prim n d p → p.symm = false)
    (o1 : VObj V) (h1 : VReach c o1) :
    ∃ t o2, o.getitem [.str e.name] = .ok t ∧ o1.setitem [.str e.name] t.toPay = (.ok (), o2) ∧ VReach c o2 ∧
      ∀ e' ∈ c.struct.entries, ∀ ks, InDims ks e'.dims →
        o2.expr (.str e'.name :: ks) = if e'.name = e.name then o.expr (.str e'.name :: ks) else o1.expr (.str e'.name :: ks) := by
  obtain ⟨x, hx⟩ := VObj.read_entries hb hwf h hall
  obtain ⟨o2, k1, k2, k3, k4⟩ := VObj.setAll_entries hb hwf x [e] h1 (List.nodup_singleton _) (by
    intro e' he'
    rw [List.mem_singleton] at he'
    subst he'
    exact ⟨he, fun is his => ((hx _ he hs).2 is his).2⟩)
  refine ⟨_, o2, (hx e he hs).1, ?_, k2, ?_⟩
  · rw [List.map_singleton, VObj.setAll] at k1
    rcases hset : o1.setitem [.str e.name] (nest e.dims (x e)).toPay with ⟨r, o3⟩
    rw [hset] at k1
    cases r with
    | error e => simp at k1
    | ok u => simpa [VObj.setAll] using k1
  · intro e' he' ks hks
    by_cases hn : e'.name = e.name
    · have : e' = e := List.inj_on_of_nodup_map hwf.nodup he' he hn
      subst this
      rw [if_pos rfl]
      obtain ⟨is, his, rfl⟩ := inDims_natKeys hks
      rw [k3 _ (by simp) is his, ((hx _ he hs).2 is his).1]
    · rw [if_neg hn]
      exact k4 e' he' (by simpa using hn) ks hks

end

/-! ## Example -/

/-- A scalar and a 2×2 list of scalars: copied with `t[...] = s[...]` and with `t['L'] = s['L']`. -/
example : ∃ (s t t' : VObj ℤ) (r r' : Tree (SMat ℤ)), newVeccat ((exDefs 5 1 2 3 4).map .one) none = .ok s ∧
    newVeccat ((exDefs 50 10 20 30 40).map .one) none = .ok t ∧ t.master = .ok [50, 10, 20, 30, 40] ∧
    s.getitem [.ellipsis] = .ok r ∧ t.setitem [.ellipsis] r.toPay = (.ok (), s) ∧ s.master = .ok [5, 1, 2, 3, 4] ∧
    s.getitem [.str "L"] = .ok r' ∧ t.setitem [.str "L"] r'.toPay = (.ok (), t') ∧ t'.master = .ok [50, 1, 2, 3, 4] := by
  have hok := fun e a b c d : ℤ => exDefs_ok e a b c d none (by rintro o ⟨⟩)
  have hcat : ∀ (e a b c d : ℤ) o, newVeccat ((exDefs e a b c d).map .one) none = .ok o → o.master = .ok [e, a, b, c, d] := by
    intro e a b c d o ho
    obtain ⟨o', h1, h2⟩ := C58_veccat_cat _ _ (hok e a b c d) (exDefs e a b c d) (List.Perm.refl _) (exDefs_def e a b c d) rfl
    rw [ho] at h1
    cases h1
    exact h2
  obtain ⟨s, c, s1, s2, s3, s4, s5⟩ := C52_assemble _ _ (hok 5 1 2 3 4)
  obtain ⟨t, ct, t1, t2, t3, t4, t5⟩ := C52_assemble _ _ (hok 50 10 20 30 40)
  obtain ⟨u, cu, u1, u2, u3, u4, u5⟩ := C52_assemble _ _ (hok 50 1 2 3 4)
  obtain ⟨c', ls, k1, k2, hwf, hb, _⟩ := (hok 5 1 2 3 4).struct
  cases s2.symm.trans k1
  cases t2.symm.trans s2
  cases u2.symm.trans s2
  have hent : c.struct.entries = [.prim "x" [] ⟨.dense 1 1, false, none, none⟩, .prim "L" [2, 2] ⟨.dense 1 1, false, none, none⟩] := by
    rw [k2]; rfl
  have hsym : ∀ n d p, Entry.prim n d p ∈ c.struct.entries → p.symm = false := by
    intro n d p h
    rw [hent] at h
    simp only [List.mem_cons, Entry.prim.injEq, List.not_mem_nil, or_false] at h
    rcases h with ⟨_, _, rfl⟩ | ⟨_, _, rfl⟩ <;> rfl
  obtain ⟨⟨r, r1, r2⟩, _⟩ := C144_copy_partial hb hwf s3 s5 hsym
  have hL : Entry.prim "L" [2, 2] ⟨.dense 1 1, false, none, none⟩ ∈ c.struct.entries := by rw [hent]; simp
  obtain ⟨r', t', q1, q2, q3, q4⟩ := C144_entry_partial hb hwf s3 s5 _ hL (fun n d p h => hsym n d p (h ▸ hL)) t t3
  refine ⟨s, t, t', r, r', s1, t1, hcat _ _ _ _ _ _ t1, r1, r2 t t3, hcat _ _ _ _ _ _ s1, q1, q2, ?_⟩
  have : t' = u := by
    refine (q3.good hwf).ext hwf (u3.good hwf) ?_
    intro a ha
    obtain ⟨e, he, ks, hks, rfl⟩ := (mem_tops hwf).1 ha
    rw [q4 e he ks hks]
    rw [hent] at he
    simp only [List.mem_cons, List.not_mem_nil, or_false] at he
    obtain ⟨is, his, rfl⟩ := inDims_natKeys hks
    rcases he with rfl | rfl
    · rw [if_neg (by simp [Entry.name])]
      have hx := IsExprDef.stores (d := ⟨.prim "x" [] ⟨.dense 1 1, false, none, none⟩, none, some (.mat (.scalar 50))⟩)
        ⟨grid_scalar (50 : ℤ), C58_entry "x" _ _ _ (grid_scalar 50)⟩
      exact (t4 _ (by simp [exDefs, DefItem.defs]) _ _ _ hx is his).trans (u4 _ (by simp [exDefs, DefItem.defs]) _ _ _ hx is his).symm
    · rw [if_pos rfl]
      have hx := IsExprDef.stores (d := ⟨.prim "L" [2, 2] ⟨.dense 1 1, false, none, none⟩, none,
        some (.list [.list [.mat (.scalar 1), .mat (.scalar 2)], .list [.mat (.scalar 3), .mat (.scalar 4)]])⟩)
        ⟨grid_two (1 : ℤ) 2 3 4, C58_entry "L" _ _ _ (grid_two 1 2 3 4)⟩
      exact (s4 _ (by simp [exDefs, DefItem.defs]) _ _ _ hx is his).trans (u4 _ (by simp [exDefs, DefItem.defs]) _ _ _ hx is his).symm
  rw [this]
  exact hcat _ _ _ _ _ _ u1

end CE.St
