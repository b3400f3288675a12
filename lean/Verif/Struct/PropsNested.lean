import Verif.Struct.PropsAll

/-! # `nesteddict`: C63 (every nested struct becomes a dict) and C61 (round trip) -/

namespace CE.St

variable {V : Type}

theorem goEntry_nested {σ F R : Type} (d : Disp σ V F R) (leaf : Trav σ V F R) (s : ℕ) (ds : List ℕ) (rest : List (PIdx F))
    (inner : Bool) (c : CIdx) (pay : Pay V) :
    goEntry d leaf (s :: ds) (.nesteddict :: rest) inner c pay = M.bind (M.forEach (List.range s) fun i : ℕ =>
      M.bind (ex (payloadUnpack pay (.int i))) fun pay' =>
        goEntry d leaf (s :: ds) [.int i, .nesteddict] inner c pay') fun r => M.pure (.list r) := by
  rw [goEntry]
  simp only [goEntry_int]

theorem goStruct_nested {σ F R : Type} (d : Disp σ V F R) (keys : List String) {es : List Entry}
    (hn : (es.map Entry.name).Nodup) (rest : List (PIdx F)) (inner : Bool) (c : CIdx) (pay : Pay V)
    (hp : ∀ items, pay ≠ .dict items) :
    goStruct d keys (travTable d es) (.nesteddict :: rest) inner c pay =
      M.bind (M.forEach es fun e => M.bind (goStruct d keys (travTable d es) [.str e.name, .nesteddict] inner c pay) fun r =>
        M.pure (e.name, r)) fun r => M.pure (.dict r) := by
  have h : goStruct d keys (travTable d es) (.nesteddict :: rest) inner c pay =
      M.bind (M.forEach (travTable d es) fun kt => M.bind (kt.2 [.nesteddict] inner (c ++ [.str kt.1]) pay) fun r =>
        M.pure (kt.1, r)) fun r => M.pure (.dict r) := by
    cases pay with
    | dict items => exact absurd rfl (hp items)
    | _ => rw [goStruct] <;> (intros; contradiction)
  rw [h, travTable_eq, M.forEach_map, ← travTable_eq]
  congr 1
  apply M.forEach_congr
  intro e he
  rw [goStruct_str, entryTrav_of_mem d hn he]

theorem goStruct_nested_items {σ F R : Type} (d : Disp σ V F R) (keys : List String) (es : List Entry)
    (rest : List (PIdx F)) (inner : Bool) (c : CIdx) (items : List (String × Pay V)) :
    goStruct d keys (travTable d es) (.nesteddict :: rest) inner c (.dict items) =
      M.bind (M.forEach items fun kv => M.bind (goStruct d keys (travTable d es) [.str kv.1, .nesteddict] inner c kv.2) fun r =>
        M.pure (kv.1, r)) fun r => M.pure (.dict r) := by
  rw [goStruct]
  simp only [goStruct_str]
  rfl

/-! ## C63 -/

section
variable [Zero V] [Add V] [Sub V]

/-- **C63** (reading): `s[a, nesteddict]` for a struct is the dict of `s[a, k, nesteddict]`. -/
theorem C63_read_nested (o : Obj V) (hwf : WFs o.cs.struct.entries o.cs.struct.order) (a : CIdx) (es' : List Entry)
    (o' : List OrderItem) (h : IsAt o.cs.struct.entries o.cs.struct.order a es' o') :
    o.getitem (a.map .ofKey ++ [.nesteddict]) =
      (es'.mapM fun e => (o.getitem (a.map .ofKey ++ [.str e.name, .nesteddict])).map fun t => (e.name, t)).map .dict := by
  simp only [o.getitem_node hwf h]
  rw [goStruct_nested _ _ (h.wf hwf).nodup _ _ _ _ (by simp), readLoop]
  simp only [gen_bind_pair]

/-- **C63** (reading): with repeat indices left over, `s[a, nesteddict]` is the list of `s[a, i, nesteddict]`. -/
theorem C63_read_nested_repeated (o : Obj V) (hwf : WFs o.cs.struct.entries o.cs.struct.order) (a : CIdx) (es' : List Entry)
    (o' : List OrderItem) (h : IsAt o.cs.struct.entries o.cs.struct.order a es' o') (e : Entry) (he : e ∈ es') (ks : CIdx)
    (ds1 ds2 : List ℕ) (d : ℕ) (hds : e.dims = ds1 ++ d :: ds2) (hks : InDims ks ds1) :
    o.getitem ((a ++ .str e.name :: ks).map .ofKey ++ [.nesteddict]) =
      ((List.range d).mapM fun i : ℕ => o.getitem ((a ++ .str e.name :: ks).map .ofKey ++ [.int i, .nesteddict])).map
        .list := by
  simp only [o.getitem_at hwf h he hds hks]
  rw [goEntry_nested, readLoop]
  rfl

/-- **C63** (reading): for an element, `s[a, nesteddict]` is `s[a]` (unless there is a priority object, see C53). -/
theorem C63_read_nested_leaf (c : CS) (hwf : WFs c.struct.entries c.struct.order) (master : List V) (a : CIdx)
    (p : Prim) (h : IsLeaf c.struct.entries a p) :
    (⟨c, master, []⟩ : Obj V).getitem (a.map .ofKey ++ [.nesteddict]) = (⟨c, master, []⟩ : Obj V).getitem (a.map .ofKey) := by
  have h1 := Obj.getitem_part (⟨c, master, []⟩ : Obj V) hwf (.leaf h) [] (fun _ => rfl)
  rw [List.append_nil] at h1
  rw [h1, Obj.getitem_part (⟨c, master, []⟩ : Obj V) hwf (.leaf h) [.nesteddict] (by simp)]
  congr 2

end

section
variable [Zero V]

/-- **C63** (writing): a dict is distributed to the entries. -/
theorem C63_write_nested (o : Obj V) (hwf : WFs o.cs.struct.entries o.cs.struct.order) (a : CIdx) (es' : List Entry)
    (o' : List OrderItem) (h : IsAt o.cs.struct.entries o.cs.struct.order a es' o') (items : List (String × Pay V)) :
    o.setitem (a.map .ofKey ++ [.nesteddict]) (.dict items) =
      o.setAll (items.map fun kv => (a.map .ofKey ++ [.str kv.1, .nesteddict], kv.2)) := by
  rw [o.setitem_node hwf h]
  simp only
  rw [goStruct_nested_items]
  apply writeLoop
  intro ki _ m
  rw [({ o with master := m } : Obj V).setitem_node hwf h]
  exact pair_run _ _ _ _

/-- **C63** (writing): a list is distributed to the repetitions. -/
theorem C63_write_nested_repeated (o : Obj V) (hwf : WFs o.cs.struct.entries o.cs.struct.order) (a : CIdx) (es' : List Entry)
    (o' : List OrderItem) (h : IsAt o.cs.struct.entries o.cs.struct.order a es' o') (e : Entry) (he : e ∈ es') (ks : CIdx)
    (ds1 ds2 : List ℕ) (d : ℕ) (hds : e.dims = ds1 ++ d :: ds2) (hks : InDims ks ds1) (L : List (Pay V)) (v : ℕ → Pay V)
    (hL : ∀ i < d, L[i]? = some (v i)) :
    o.setitem ((a ++ .str e.name :: ks).map .ofKey ++ [.nesteddict]) (.list L) =
      o.setAll ((List.range d).map fun i : ℕ => ((a ++ .str e.name :: ks).map .ofKey ++ [.int i, .nesteddict], v i)) := by
  rw [o.setitem_at hwf h he hds hks]
  simp only
  rw [goEntry_nested, M.forEach_congr _ _ (fun i : ℕ => goEntry (setDisp o.cs.map) (Entry.leafTrav (setDisp o.cs.map) e)
    (d :: ds2) [.int i, .nesteddict] false (a ++ .str e.name :: ks) (v i))]
  · apply writeLoop
    intro i _ m
    exact ({ o with master := m } : Obj V).setitem_at hwf h he hds hks _ _
  · intro i hi
    have hL := hL i (List.mem_range.1 hi)
    have hlt := (List.getElem?_eq_some_iff.1 hL).1
    have : payloadUnpack (.list L) (.int i) = .ok (v i) := by
      rw [payloadUnpack, if_neg (by omega), pyIndex]
      simp only [if_neg (show ¬ ((i : ℕ) : ℤ) < 0 by omega), Int.toNat_natCast, hL]
    rw [this]
    rfl

/-- **C63** (writing): for an element, `s[a, nesteddict] = v` is `s[a] = v`. -/
theorem C63_write_nested_leaf (o : Obj V) (hwf : WFs o.cs.struct.entries o.cs.struct.order) (a : CIdx)
    (p : Prim) (h : IsLeaf o.cs.struct.entries a p) (pay : Pay V) :
    o.setitem (a.map .ofKey ++ [.nesteddict]) pay = o.setitem (a.map .ofKey) pay := by
  have h1 := Obj.setitem_part o hwf (.leaf h) [] (fun _ => rfl) pay
  rw [List.append_nil] at h1
  rw [h1, Obj.setitem_part o hwf (.leaf h) [.nesteddict] (by simp) pay]
  rfl

end

/-! ## C61 -/

section
variable [Zero V] [Add V] [Sub V]

/-- Writing the elements of `master` to some leaves. -/
theorem setAll_back {c : CS} {ls} (hb : Built c ls) (hwf : WFs c.struct.entries c.struct.order)
    {prio : List (CIdx × SMat V)} {master : List V} (hlen : master.length = c.size) (m : CIdx → SMat V) (L : List CIdx)
    (hL : ∀ x ∈ L, ∃ sp f, Accepts c.struct.entries x (.mat (m x)) sp f ∧ stored c master x = sp.nz.map f) :
    ∀ m0 : List V, m0.length = c.size → ∃ m1,
      (⟨c, m0, prio⟩ : Obj V).setAll (L.map fun x => (x.map .ofKey, .mat (m x))) = (.ok (), ⟨c, m1, prio⟩) ∧
      m1.length = c.size ∧ (∀ k, (m0[k]? = master[k]? ∨ ∃ x ∈ L, ∃ i, dictGet c.map x = some i ∧ k ∈ i.data) →
        m1[k]? = master[k]?) ∧
      ∀ k, (∀ x ∈ L, ∀ i, dictGet c.map x = some i → k ∉ i.data) → m1[k]? = m0[k]? := by
  induction L with
  | nil =>
    intro m0 h0
    refine ⟨m0, rfl, h0, ?_, fun k _ => rfl⟩
    rintro k (h | ⟨_, h, _⟩)
    · exact h
    · cases h
  | cons x L ih =>
    intro m0 h0
    obtain ⟨sp, f, ha, hs⟩ := hL x List.mem_cons_self
    obtain ⟨i, m1, g1, g2, g3, g4, g5, g6, g7⟩ := accepts_write hb hwf h0 (prio := prio) ha
    obtain ⟨m2, k1, k2, k3, k4⟩ := ih (fun y hy => hL y (List.mem_cons_of_mem _ hy)) m1 (by rw [g5, h0])
    refine ⟨m2, ?_, k2, ?_, fun k hk => ?_⟩
    rotate_left 2
    · rw [k4 k fun y hy => hk y (List.mem_cons_of_mem _ hy), g7 k (hk x List.mem_cons_self i g1)]
    · rw [List.map_cons, Obj.setAll, g4]
      exact k1
    · have hin : ∀ k ∈ i.data, m1[k]? = master[k]? := by
        intro k hk
        have e : (i.data.map fun k => m1.getD k 0) = i.data.map fun k => master.getD k 0 := by
          rw [g6, ← hs, stored, g1]
        have := List.map_inj_left.1 e k hk
        have hk' := g3 k hk
        have h1 : k < m1.length := by omega
        have h2 : k < master.length := by omega
        simp only [List.getD_eq_getElem?_getD, List.getElem?_eq_getElem h1, List.getElem?_eq_getElem h2,
          Option.getD_some] at this ⊢
        rw [this]
      rintro k (h | ⟨y, hy, j, hj, hk⟩)
      · apply k3
        left
        by_cases hk : k ∈ i.data
        · exact hin k hk
        · rw [g7 k hk, h]
      · apply k3
        rcases List.mem_cons.1 hy with rfl | hy
        · rw [g1] at hj
          cases hj
          exact .inl (hin k hk)
        · exact .inr ⟨y, hy, j, hj, hk⟩

/-- What is read for the power index `pi`, below the canonical index `a`, and written to another object, writes the elements
below `a`. -/
def Back (c : CS) (master : List V) (m : CIdx → SMat V) (pi : List (PIdx (PyFn V))) (a : CIdx) : Prop :=
  ∃ (t : Tree (SMat V)) (L : List CIdx), (⟨c, master, []⟩ : Obj V).getitem pi = .ok t ∧
    (∀ o : Obj V, o.cs = c → o.setitem pi t.toPay = o.setAll (L.map fun x => (x.map .ofKey, .mat (m x)))) ∧
    (∀ x ∈ L, a <+: x ∧ ∃ p, IsLeaf c.struct.entries x p) ∧ ∀ x p, IsLeaf c.struct.entries x p → a <+: x → x ∈ L

theorem back_leaf {c : CS} (hwf : WFs c.struct.entries c.struct.order) {master : List V} {m : CIdx → SMat V} {a : CIdx} {p : Prim}
    (h : IsLeaf c.struct.entries a p) (hm : (⟨c, master, []⟩ : Obj V).getitem (a.map .ofKey) = .ok (.leaf (m a))) :
    Back c master m (a.map .ofKey ++ [.nesteddict]) a := by
  refine ⟨.leaf (m a), [a], ?_, ?_, ?_, ?_⟩
  · rw [C63_read_nested_leaf c hwf master a p h, hm]
  · intro o ho
    subst ho
    rw [C63_write_nested_leaf o hwf a p h, Tree.toPay, List.map_singleton, Obj.setAll_single]
  · intro x hx
    rw [List.mem_singleton.1 hx]
    exact ⟨List.prefix_refl _, p, h⟩
  · rintro x q hx ⟨d, rfl⟩
    rw [(h.prefix_free hwf hx).1]
    simp

theorem back_repeat {c : CS} (hwf : WFs c.struct.entries c.struct.order) {master : List V} {m : CIdx → SMat V} {a es' o'}
    (h : IsAt c.struct.entries c.struct.order a es' o') {e : Entry} (he : e ∈ es')
    (hb : ∀ ks, InDims ks e.dims → Back c master m ((a ++ .str e.name :: ks).map .ofKey ++ [.nesteddict]) (a ++ .str e.name :: ks))
    {ds2 : List ℕ} : ∀ (ds1 : List ℕ) (ks : CIdx) (_ : e.dims = ds1 ++ ds2) (_ : InDims ks ds1),
      Back c master m ((a ++ .str e.name :: ks).map .ofKey ++ [.nesteddict]) (a ++ .str e.name :: ks) := by
  induction ds2 with
  | nil =>
    intro ds1 ks hds hks
    exact hb ks (by rw [hds, List.append_nil]; exact hks)
  | cons d ds2 ih =>
    intro ds1 ks hds hks
    have step : ∀ i < d, Back c master m ((a ++ Key.str e.name :: (ks ++ [.int i])).map .ofKey ++ [.nesteddict])
        (a ++ .str e.name :: (ks ++ [.int i])) := by
      intro i hi
      refine ih (ds1 ++ [d]) _ (by rw [hds]; simp) ?_
      exact List.rel_append hks (.cons ⟨i, hi, rfl⟩ .nil)
    unfold Back at step
    haveI : Inhabited (Tree (SMat V)) := ⟨.list []⟩
    choose! t L h1 h2 h3 h4 using step
    have e1 : ∀ i : ℕ, (a ++ Key.str e.name :: (ks ++ [.int i])).map (PIdx.ofKey (F := PyFn V)) ++ [.nesteddict] =
        (a ++ .str e.name :: ks).map .ofKey ++ [.int i, .nesteddict] := by
      intro i
      simp [PIdx.ofKey]
    refine ⟨.list ((List.range d).map t), (List.range d).flatMap L, ?_, ?_, ?_, ?_⟩
    · rw [C63_read_nested_repeated (⟨c, master, []⟩ : Obj V) hwf a es' o' h e he ks ds1 ds2 d hds hks,
        except_mapM_ok _ _ t]
      · rfl
      · intro i hi
        rw [← e1]
        exact h1 i (List.mem_range.1 hi)
    · intro o ho
      subst ho
      rw [Tree.toPay, C63_write_nested_repeated o hwf a es' o' h e he ks ds1 ds2 d hds hks _ (fun i => (t i).toPay),
        Obj.setAll_flatMap (List.range d) _ (fun i => (L i).map fun x => (x.map .ofKey, .mat (m x))) o.cs _ o rfl,
        List.map_flatMap]
      · intro i hi o' ho'
        rw [← e1]
        exact h2 i (List.mem_range.1 hi) o' ho'
      · intro i hi
        rw [toPays_eq]
        simp [hi]
    · intro x hx
      obtain ⟨i, hi, hx⟩ := List.mem_flatMap.1 hx
      obtain ⟨⟨y, rfl⟩, h⟩ := h3 i (List.mem_range.1 hi) x hx
      exact ⟨⟨.int i :: y, by simp⟩, h⟩
    · rintro x p hx ⟨y, rfl⟩
      rw [List.append_assoc] at hx
      obtain ⟨e', ks', c', he', hks', e2, _⟩ := (h.leaf_inv hwf hx).decode (h.wf hwf)
      have hn : e.name = e'.name := Key.str.inj (List.cons.inj e2).1
      obtain rfl := eq_of_name (h.wf hwf).nodup he he' hn
      have e3 : ks ++ y = ks' ++ c' := (List.cons.inj e2).2
      rw [hds] at hks'
      have q1 := List.forall₂_take_append ks' ds1 (d :: ds2) hks'
      have q2 := List.forall₂_drop_append ks' ds1 (d :: ds2) hks'
      rw [← List.take_append_drop ds1.length ks', List.append_assoc] at e3
      obtain ⟨e4, e5⟩ := List.append_inj e3 (by rw [hks.length, q1.length_eq])
      generalize List.drop ds1.length ks' = k2 at q2 e5
      cases q2 with
      | @cons k _ k3 _ r1 r2 =>
        obtain ⟨i, hi, rfl⟩ := r1
        rw [← List.append_assoc] at hx
        refine List.mem_flatMap.2 ⟨i, List.mem_range.2 hi, h4 i hi _ p hx ⟨k3 ++ c', ?_⟩⟩
        rw [e5]
        simp

theorem back_node {c : CS} (hwf : WFs c.struct.entries c.struct.order) {master : List V} {m : CIdx → SMat V} {a es' o'}
    (h : IsAt c.struct.entries c.struct.order a es' o')
    (hb : ∀ e ∈ es', Back c master m ((a ++ [Key.str e.name]).map .ofKey ++ [.nesteddict]) (a ++ [Key.str e.name])) :
    Back c master m (a.map .ofKey ++ [.nesteddict]) a := by
  unfold Back at hb
  haveI : Inhabited (Tree (SMat V)) := ⟨.list []⟩
  choose! t L h1 h2 h3 h4 using hb
  have e1 : ∀ n : String, (a ++ [Key.str n]).map (PIdx.ofKey (F := PyFn V)) ++ [.nesteddict] =
      a.map .ofKey ++ [.str n, .nesteddict] := by
    intro i
    simp [PIdx.ofKey]
  refine ⟨.dict (es'.map fun e => (e.name, t e)), es'.flatMap L, ?_, ?_, ?_, ?_⟩
  · rw [C63_read_nested (⟨c, master, []⟩ : Obj V) hwf a es' o' h, except_mapM_ok _ _ fun e => (e.name, t e)]
    · rfl
    · intro e he
      rw [← e1, h1 e he]
      rfl
  · intro o ho
    subst ho
    rw [Tree.toPay, C63_write_nested o hwf a es' o' h, toItems_eq, List.map_map, List.map_map,
      Obj.setAll_flatMap es' _ (fun e => (L e).map fun x => (x.map .ofKey, .mat (m x))) o.cs _ o rfl,
      List.map_flatMap]
    intro e he o' ho'
    simp only [Function.comp]
    rw [← e1]
    exact h2 e he o' ho'
  · intro x hx
    obtain ⟨e, he, hx⟩ := List.mem_flatMap.1 hx
    obtain ⟨⟨y, rfl⟩, h⟩ := h3 e he x hx
    exact ⟨⟨.str e.name :: y, by simp⟩, h⟩
  · rintro x p hx ⟨y, rfl⟩
    obtain ⟨e', ks', c', he', hks', e2, _⟩ := (h.leaf_inv hwf hx).decode (h.wf hwf)
    refine List.mem_flatMap.2 ⟨e', he', h4 e' he' _ p hx ⟨ks' ++ c', ?_⟩⟩
    rw [e2]
    simp

theorem back_all {c : CS} (hwf : WFs c.struct.entries c.struct.order) {master : List V} {m : CIdx → SMat V}
    (hm : ∀ x p, IsLeaf c.struct.entries x p → (⟨c, master, []⟩ : Obj V).getitem (x.map .ofKey) = .ok (.leaf (m x))) :
    ∀ (n : ℕ) {a es' o'}, sizeOf es' < n → IsAt c.struct.entries c.struct.order a es' o' →
      Back c master m (a.map .ofKey ++ [.nesteddict]) a := by
  intro n
  induction n with
  | zero => intro a es' o' h; omega
  | succ n ih =>
    intro a es' o' hn h
    apply back_node hwf h
    intro e he
    refine back_repeat (m := m) (master := master) hwf h he ?_ [] [] rfl .nil
    intro ks hks
    cases e with
    | prim nm d p =>
      have hl : IsLeaf c.struct.entries (a ++ .str nm :: ks) p := h.leaf (.prim he hks)
      exact back_leaf hwf hl (hm _ _ hl)
    | nested nm d es2 o2 =>
      have hlt := List.sizeOf_lt_of_mem he
      simp only [Entry.nested.sizeOf_spec] at hlt
      exact ih (by omega) (.node (h.sub (.top he hks)))

/-- **C61** (any level): with `nesteddict`, a struct (or a nested struct, at any depth) is read as dicts of (nested lists of)
dicts down to the elements; and assigning what was read to the same place of another struct of the same layout gives each element
below it the data of the first struct, and leaves all other elements alone. -/
theorem C61_nested_node (hv : ∀ x : V, x + x - x = x) (s : Struct) (hwf : WFs s.entries s.order)
    (hs : ∀ x p, IsLeaf s.entries x p → p.symm = true →
      ∃ osp, IsSymm p osp ∧ ∀ i j, (i, j) ∈ osp.nz ↔ (j, i) ∈ osp.nz)
    (c : CS) (hc : CS.ofStruct s = .ok c) (master : List V) (hlen : master.length = c.size) (a : CIdx) (es' : List Entry)
    (o' : List OrderItem) (h : IsAt s.entries s.order a es' o') :
    ∃ t, (⟨c, master, []⟩ : Obj V).getitem (a.map .ofKey ++ [.nesteddict]) = .ok t ∧
      ∀ (prio : List (CIdx × SMat V)) (master' : List V), master'.length = c.size →
      ∃ m1, (⟨c, master', prio⟩ : Obj V).setitem (a.map .ofKey ++ [.nesteddict]) t.toPay = (.ok (), ⟨c, m1, prio⟩) ∧
        m1.length = c.size ∧ ∀ x p i, IsLeaf s.entries x p → c.i (V := V) (x.map .ofKey) = .ok (.leaf i) → ∀ k ∈ i.data,
          (a <+: x → m1[k]? = master[k]?) ∧ (¬ a <+: x → m1[k]? = master'[k]?) := by
  obtain ⟨c', ls, hc', rfl, hb⟩ := ofStruct_built hwf
  rw [hc] at hc'
  cases hc'
  have key : ∀ x, (∃ p, IsLeaf c.struct.entries x p) → ∃ m, (⟨c, master, []⟩ : Obj V).getitem (x.map .ofKey) = .ok (.leaf m) ∧
      ∃ sp f, Accepts c.struct.entries x (.mat m) sp f ∧ stored c master x = sp.nz.map f := by
    rintro x ⟨p, hp⟩
    obtain ⟨m, f, h1, h2⟩ := read_accepts hv hb hwf hlen (.leaf hp) (by rintro _ ⟨⟩; exact hs x p hp)
    exact ⟨m, h1, _, f, h2⟩
  haveI : Inhabited (SMat V) := ⟨.scalar 0⟩
  choose! m h1 h2 using key
  obtain ⟨t, L, g1, g2, g3, g4⟩ := back_all hwf (fun x p hx => h1 x ⟨p, hx⟩) (sizeOf es' + 1) (Nat.lt_succ_self _) h
  refine ⟨t, g1, ?_⟩
  intro prio master' hlen'
  obtain ⟨m1, k1, k2, k3, k4⟩ := setAll_back hb hwf (prio := prio) hlen m L (fun x hx => h2 x (g3 x hx).2) master' hlen'
  refine ⟨m1, by rw [g2 _ rfl, k1], k2, ?_⟩
  intro x p i hx hi k hk
  obtain ⟨pre, post, e, hg⟩ := hb.leaf_get hwf hx
  rw [c.i_leaf hwf hx, hg] at hi
  cases hi
  refine ⟨fun ha => k3 k (.inr ⟨x, g4 x p hx ha, _, hg, hk⟩), fun ha => k4 k ?_⟩
  intro y hy j hj hkj
  obtain ⟨hay, q, hq⟩ := g3 y hy
  refine hb.part_disjoint hwf (.leaf hx) (.leaf hq) ?_ ?_ hg hj hk hkj
  · rintro ⟨d, rfl⟩
    rw [(hx.prefix_free hwf hq).1, List.append_nil] at hay
    exact ha hay
  · rintro ⟨d, rfl⟩
    exact ha (hay.trans (List.prefix_append _ _))

/-- **C61** (all levels): with `nesteddict`, assigning what was read to `t[nesteddict]` of another struct of the same layout
makes their data equal.  This holds also for structs with empty nested structs, for which `t[...] = s[...]` raises
(`C61_empty`). -/
theorem C61_nested (hv : ∀ x : V, x + x - x = x) (s : Struct) (hwf : WFs s.entries s.order)
    (hs : ∀ x p, IsLeaf s.entries x p → p.symm = true →
      ∃ osp, IsSymm p osp ∧ ∀ i j, (i, j) ∈ osp.nz ↔ (j, i) ∈ osp.nz)
    (c : CS) (hc : CS.ofStruct s = .ok c) (master : List V) (hlen : master.length = c.size) :
    ∃ t, (⟨c, master, []⟩ : Obj V).getitem [.nesteddict] = .ok t ∧ ∀ (prio : List (CIdx × SMat V)) (master' : List V),
      master'.length = c.size →
      (⟨c, master', prio⟩ : Obj V).setitem [.nesteddict] t.toPay = (.ok (), ⟨c, master, prio⟩) := by
  obtain ⟨t, h1, h2⟩ := C61_nested_node hv s hwf hs c hc master hlen [] _ _ .root
  refine ⟨t, h1, ?_⟩
  intro prio master' hlen'
  obtain ⟨m1, k1, k2, k3⟩ := h2 prio master' hlen'
  have e : m1 = master := by
    apply List.ext_getElem?
    intro k
    by_cases hk : k < c.size
    · obtain ⟨c', hc', g0, g⟩ := C38_partition (V := V) s hwf
      rw [hc] at hc'
      cases hc'
      obtain ⟨⟨x, q⟩, ⟨p, i, hp, hi, hq⟩, _⟩ := g k hk
      refine (k3 x p i hp hi k ?_).1 List.nil_prefix
      obtain ⟨i', hi', hsp, _⟩ := g0 x p hp
      rw [hi] at hi'
      cases hi'
      obtain ⟨j, _, hj⟩ := (SMat.nzAt_eq_some (by rw [hsp]; exact hp.canon hwf)).1 hq
      exact List.mem_of_getElem? hj
    · rw [List.getElem?_eq_none (by omega), List.getElem?_eq_none (by omega)]
  rw [e] at k1
  exact k1

/-- In `exStruct`, with all 17 numbers; here `t["n",1,nesteddict] = s["n",1,nesteddict]` copies the four numbers of the second
repetition of the nested struct, and nothing else. -/
example (master master' : List ℚ) (c : CS) (hc : CS.ofStruct exStruct = .ok c) (h : master.length = 17)
    (h' : master'.length = 17) :
    (∃ t, (⟨c, master, []⟩ : Obj ℚ).getitem [.nesteddict] = .ok t ∧
      (⟨c, master', []⟩ : Obj ℚ).setitem [.nesteddict] t.toPay = (.ok (), ⟨c, master, []⟩)) ∧
    ∃ t m1, (⟨c, master, []⟩ : Obj ℚ).getitem [.str "n", .int 1, .nesteddict] = .ok t ∧
      (⟨c, master', []⟩ : Obj ℚ).setitem [.str "n", .int 1, .nesteddict] t.toPay = (.ok (), ⟨c, m1, []⟩) ∧
      ∀ i, c.i (V := ℚ) [.str "n", .int 1, .str "P"] = .ok (.leaf i) → ∀ k ∈ i.data, m1[k]? = master[k]? := by
  have hsize : c.size = 17 := by
    obtain ⟨c', g, hs, _⟩ := C39_size exStruct exStruct_wf
    rw [hc] at g
    cases g
    rw [hs]; rfl
  have hs : ∀ x p, IsLeaf exStruct.entries x p → p.symm = true →
      ∃ osp, IsSymm p osp ∧ ∀ i j, (i, j) ∈ osp.nz ↔ (j, i) ∈ osp.nz := by
    intro x p hx hp
    exfalso
    cases hx with
    | prim he _ =>
      simp only [exStruct, List.mem_cons, List.not_mem_nil, or_false, reduceCtorEq, Entry.prim.injEq, false_or] at he
      rcases he with ⟨_, _, rfl⟩ | ⟨_, _, rfl⟩ | ⟨_, _, rfl⟩ <;> cases hp
    | nested he _ hl =>
      simp only [exStruct, List.mem_cons, List.not_mem_nil, or_false, reduceCtorEq, Entry.nested.injEq, false_or] at he
      obtain ⟨_, _, rfl, rfl⟩ := he
      cases hl with
      | prim he _ =>
        simp only [exNested, List.mem_cons, List.not_mem_nil, or_false, Entry.prim.injEq] at he
        rcases he with ⟨_, _, rfl⟩ | ⟨_, _, rfl⟩ <;> cases hp
      | nested he _ _ => simp [exNested] at he
  have hn : Entry.nested "n" [2] exNested [.one "u", .one "P"] ∈ exStruct.entries := by simp [exStruct]
  have hks : InDims [.int 1] [2] := .cons ⟨1, by decide, rfl⟩ .nil
  constructor
  · obtain ⟨t, h1, h2⟩ := C61_nested (V := ℚ) (fun x => by ring) exStruct exStruct_wf hs c hc master (by rw [h, hsize])
    exact ⟨t, h1, h2 [] master' (by rw [h', hsize])⟩
  · obtain ⟨t, h1, h2⟩ := C61_nested_node (V := ℚ) (fun x => by ring) exStruct exStruct_wf hs c hc master (by rw [h, hsize])
      [.str "n", .int 1] _ _ (.node (.top hn hks))
    obtain ⟨m1, k1, _, k2⟩ := h2 [] master' (by rw [h', hsize])
    refine ⟨t, m1, h1, k1, fun i hi k hk => (k2 [.str "n", .int 1, .str "P"] ⟨.upper 2, false, none, none⟩ i ?_ hi k hk).1 ⟨[.str "P"], rfl⟩⟩
    exact .nested (ks := [.int 1]) hn hks (.prim (ks := []) (List.mem_cons_of_mem _ List.mem_cons_self) .nil)

end

/-- C63: in `exStruct`, `s["n",0,nesteddict]` is a dict of its two entries, `s[...]` a list of the four entries in the order
x, n, a, b. -/
example (o : Obj ℚ) (hs : o.cs.struct = exStruct) :
    o.getitem [.str "n", .int 0, .nesteddict] =
      (exNested.mapM fun e => (o.getitem [.str "n", .int 0, .str e.name, .nesteddict]).map fun t => (e.name, t)).map .dict ∧
    o.getitem [.ellipsis] = (["x", "n", "a", "b"].mapM fun k => o.getitem [.str k]).map .list := by
  have hn : Entry.nested "n" [2] exNested [.one "u", .one "P"] ∈ exStruct.entries := by simp [exStruct]
  have hks : InDims [.int 0] [2] := .cons ⟨0, by decide, rfl⟩ .nil
  have hwf : WFs o.cs.struct.entries o.cs.struct.order := by rw [hs]; exact exStruct_wf
  constructor
  · exact C63_read_nested o hwf [.str "n", .int 0] exNested _ (by rw [hs]; exact .node (.top hn hks))
  · have := C63_read_ellipsis o hwf [] _ _ .root []
    rw [hs] at this
    exact this

/-- C63: `s["n",nesteddict]` is the list of the two `s["n",i,nesteddict]`; at an element, `nesteddict` changes nothing; and
`s["n",1,nesteddict] = {'u': 1, 'P': 2}` is the two assignments. -/
example (c : CS) (hs : c.struct = exStruct) (master : List ℚ) :
    (⟨c, master, []⟩ : Obj ℚ).getitem [.str "n", .nesteddict] =
      ((List.range 2).mapM fun i : ℕ => (⟨c, master, []⟩ : Obj ℚ).getitem [.str "n", .int i, .nesteddict]).map .list ∧
    (⟨c, master, []⟩ : Obj ℚ).getitem [.str "x", .nesteddict] = (⟨c, master, []⟩ : Obj ℚ).getitem [.str "x"] ∧
    (⟨c, master, []⟩ : Obj ℚ).setitem [.str "x", .nesteddict] (.num 5) = (⟨c, master, []⟩ : Obj ℚ).setitem [.str "x"] (.num 5) ∧
    (⟨c, master, []⟩ : Obj ℚ).setitem [.str "n", .int 1, .nesteddict] (.dict [("u", .num 1), ("P", .num 2)]) =
      (⟨c, master, []⟩ : Obj ℚ).setAll [([.str "n", .int 1, .str "u", .nesteddict], .num 1),
        ([.str "n", .int 1, .str "P", .nesteddict], .num 2)] ∧
    (⟨c, master, []⟩ : Obj ℚ).setitem [.str "a", .nesteddict] (.list [.num 7, .num 8, .num 9]) =
      (⟨c, master, []⟩ : Obj ℚ).setAll [([.str "a", .int 0, .nesteddict], .num 7), ([.str "a", .int 1, .nesteddict], .num 8),
        ([.str "a", .int 2, .nesteddict], .num 9)] := by
  have hn : Entry.nested "n" [2] exNested [.one "u", .one "P"] ∈ c.struct.entries := by rw [hs]; simp [exStruct]
  have ha : Entry.prim "a" [3] ⟨.dense 1 1, false, none, none⟩ ∈ c.struct.entries := by rw [hs]; simp [exStruct]
  have hwf : WFs c.struct.entries c.struct.order := by rw [hs]; exact exStruct_wf
  have hx : IsLeaf c.struct.entries [.str "x"] ⟨.dense 2 1, false, none, none⟩ := by
    rw [hs]
    exact .prim (by simp [exStruct]) .nil
  refine ⟨?_, ?_, ?_, ?_, ?_⟩
  · exact C63_read_nested_repeated (⟨c, master, []⟩ : Obj ℚ) hwf [] _ _ .root _ hn [] [] [] 2 rfl .nil
  · exact C63_read_nested_leaf c hwf master _ _ hx
  · exact C63_write_nested_leaf (⟨c, master, []⟩ : Obj ℚ) hwf _ _ hx (.num 5)
  · exact C63_write_nested (⟨c, master, []⟩ : Obj ℚ) hwf [.str "n", .int 1] _ _
      (.node (.top hn (ks := [.int 1]) (.cons ⟨1, by decide, rfl⟩ .nil))) [("u", .num 1), ("P", .num 2)]
  · exact C63_write_nested_repeated (⟨c, master, []⟩ : Obj ℚ) hwf [] _ _ .root _ ha [] [] [] 3 rfl .nil
      [.num 7, .num 8, .num 9] (fun i => [Pay.num 7, .num 8, .num 9].getD i (.num 0)) (by
        intro i hi
        match i, hi with
        | 0, _ => rfl
        | 1, _ => rfl
        | 2, _ => rfl)

end CE.St
