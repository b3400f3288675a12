import Verif.Struct.PropsExpr

/-! # Ellipsis, dicts and sets in power indices: C63, and reading and writing everything: C61 -/

namespace CE.St

variable {V : Type}

theorem goStruct_ellipsis {σ F R : Type} (d : Disp σ V F R) (keys : List String) (es : List Entry) (rest : List (PIdx F))
    (inner : Bool) (c : CIdx) (pay : Pay V) :
    goStruct d keys (travTable d es) (.ellipsis :: rest) inner c pay =
      M.bind (M.forEach keys.zipIdx fun ki => M.bind (ex (payloadUnpack pay (.int ki.2))) fun pay' =>
        goStruct d keys (travTable d es) (.str ki.1 :: rest) inner c pay') fun r => M.pure (.list r) := by
  rw [goStruct]
  simp only [goStruct_str]
  rfl

theorem goStruct_dict {σ F R : Type} (d : Disp σ V F R) (keys : List String) {es : List Entry}
    (hn : (es.map Entry.name).Nodup) (rest : List (PIdx F)) (inner : Bool) (c : CIdx) (pay : Pay V)
    (hp : ∀ items, pay ≠ .dict items) :
    goStruct d keys (travTable d es) (.dict :: rest) inner c pay =
      M.bind (M.forEach es fun e => M.bind (goStruct d keys (travTable d es) (.str e.name :: rest) inner c pay) fun r =>
        M.pure (e.name, r)) fun r => M.pure (.dict r) := by
  have h : goStruct d keys (travTable d es) (.dict :: rest) inner c pay =
      M.bind (M.forEach (travTable d es) fun kt => M.bind (kt.2 rest inner (c ++ [.str kt.1]) pay) fun r =>
        M.pure (kt.1, r)) fun r => M.pure (.dict r) := by
    cases pay with
    | dict items => exact absurd rfl (hp items)
    | _ => rw [goStruct] <;> (intros; contradiction)
  rw [h, travTable_eq, M.forEach_map, ← travTable_eq]
  congr 1
  apply M.forEach_congr
  intro e he
  rw [goStruct_str, entryTrav_of_mem d hn he]

theorem goStruct_dict_items {σ F R : Type} (d : Disp σ V F R) (keys : List String) (es : List Entry)
    (rest : List (PIdx F)) (inner : Bool) (c : CIdx) (items : List (String × Pay V)) :
    goStruct d keys (travTable d es) (.dict :: rest) inner c (.dict items) =
      M.bind (M.forEach items fun kv => M.bind (goStruct d keys (travTable d es) (.str kv.1 :: rest) inner c kv.2) fun r =>
        M.pure (kv.1, r)) fun r => M.pure (.dict r) := by
  rw [goStruct]
  simp only [goStruct_str]
  rfl

theorem goStruct_set {σ F R : Type} (d : Disp σ V F R) (keys : List String) (es : List Entry) (ks : List String)
    (rest : List (PIdx F)) (inner : Bool) (c : CIdx) (pay : Pay V) (hp : ∀ items, pay ≠ .dict items) :
    goStruct d keys (travTable d es) (.set ks :: rest) inner c pay =
      M.bind (M.forEach ks fun k => M.bind (goStruct d keys (travTable d es) (.str k :: rest) inner c pay) fun r =>
        M.pure (k, r)) fun r => M.pure (.dict r) := by
  simp only [goStruct_str]
  cases pay with
  | dict items => exact absurd rfl (hp items)
  | _ => rw [goStruct] <;> first | rfl | (intros; contradiction)

theorem goStruct_set_items {σ F R : Type} (d : Disp σ V F R) (keys : List String) (es : List Entry) (ks : List String)
    (rest : List (PIdx F)) (inner : Bool) (c : CIdx) (items : List (String × Pay V)) :
    goStruct d keys (travTable d es) (.set ks :: rest) inner c (.dict items) =
      M.bind (M.forEach (items.filter fun kv => kv.1 ∈ ks) fun kv =>
        M.bind (goStruct d keys (travTable d es) (.str kv.1 :: rest) inner c kv.2) fun r => M.pure (kv.1, r))
        fun r => M.pure (.dict r) := by
  rw [goStruct]
  simp only [goStruct_str]
  rfl

/-! ## C63: reading -/

/-- A loop while reading. -/
theorem readLoop {α β γ : Type} (l : List α) (g : α → M Unit β) (f : List β → γ) :
    gen (M.bind (M.forEach l g) (fun r => M.pure (f r)) ()).1 = (l.mapM fun a => gen (g a ()).1).map f := by
  rw [← M.forEach_unit, M.bind]
  rcases M.forEach l g () with ⟨r, u⟩
  cases r <;> rfl

section
variable [Zero V] [Add V] [Sub V]

theorem Obj.getitem_node (o : Obj V) (hwf : WFs o.cs.struct.entries o.cs.struct.order) {a es' o'}
    (h : IsAt o.cs.struct.entries o.cs.struct.order a es' o') (rest : List (PIdx (PyFn V))) :
    o.getitem (a.map .ofKey ++ rest) = gen (goStruct (getDisp o.cs.map o.prio o.master) (o'.flatMap OrderItem.names)
      (travTable (getDisp o.cs.map o.prio o.master) es') rest false a .none ()).1 := by
  rw [Obj.getitem_eq, Struct.keys, goStruct_at _ hwf h]
  rfl

/-- **C63** (reading): in a struct or nested struct at any depth, `...` stands for the list over all entries in the order of
the layout: `s[a, ..., rest] = [s[a, k, rest] for k in keys]`; the first exception is propagated. -/
theorem C63_read_ellipsis (o : Obj V) (hwf : WFs o.cs.struct.entries o.cs.struct.order) (a : CIdx) (es' : List Entry)
    (o' : List OrderItem) (h : IsAt o.cs.struct.entries o.cs.struct.order a es' o') (rest : List (PIdx (PyFn V))) :
    o.getitem (a.map .ofKey ++ .ellipsis :: rest) =
      ((o'.flatMap OrderItem.names).mapM fun k => o.getitem (a.map .ofKey ++ .str k :: rest)).map .list := by
  simp only [o.getitem_node hwf h]
  rw [goStruct_ellipsis, readLoop]
  congr 1
  have : ∀ (l : List String) (n : ℕ), ((l.zipIdx n).mapM fun ki : String × ℕ =>
      gen ((M.bind (ex (payloadUnpack (V := V) .none (.int ki.2))) fun pay' =>
        goStruct (getDisp o.cs.map o.prio o.master) (o'.flatMap OrderItem.names)
          (travTable (getDisp o.cs.map o.prio o.master) es') (.str ki.1 :: rest) false a pay') ()).1) =
      l.mapM fun k => gen (goStruct (getDisp o.cs.map o.prio o.master) (o'.flatMap OrderItem.names)
          (travTable (getDisp o.cs.map o.prio o.master) es') (.str k :: rest) false a .none ()).1 := by
    intro l
    induction l with
    | nil => intro n; rfl
    | cons k l ih => intro n; rw [List.zipIdx_cons, List.mapM_cons, List.mapM_cons, ih]; rfl
  exact this _ 0

theorem gen_bind_pair {β γ : Type} (x : M Unit β) (f : β → γ) :
    gen (M.bind x (fun r => M.pure (f r)) ()).1 = (gen (x ()).1).map f := by
  rw [M.bind]
  rcases x () with ⟨r, u⟩
  cases r <;> rfl

/-- **C63** (reading): `s[a, {}, rest] = {k: s[a, k, rest] for k in definition order}`. -/
theorem C63_read_dict (o : Obj V) (hwf : WFs o.cs.struct.entries o.cs.struct.order) (a : CIdx) (es' : List Entry)
    (o' : List OrderItem) (h : IsAt o.cs.struct.entries o.cs.struct.order a es' o') (rest : List (PIdx (PyFn V))) :
    o.getitem (a.map .ofKey ++ .dict :: rest) =
      (es'.mapM fun e => (o.getitem (a.map .ofKey ++ .str e.name :: rest)).map fun t => (e.name, t)).map .dict := by
  simp only [o.getitem_node hwf h]
  rw [goStruct_dict _ _ (h.wf hwf).nodup _ _ _ _ (by simp), readLoop]
  simp only [gen_bind_pair]

/-- **C63** (reading): `s[a, {k1, k2}, rest]` is the dict of `s[a, k1, rest]` and `s[a, k2, rest]`. -/
theorem C63_read_set (o : Obj V) (hwf : WFs o.cs.struct.entries o.cs.struct.order) (a : CIdx) (es' : List Entry)
    (o' : List OrderItem) (h : IsAt o.cs.struct.entries o.cs.struct.order a es' o') (ks : List String)
    (rest : List (PIdx (PyFn V))) :
    o.getitem (a.map .ofKey ++ .set ks :: rest) =
      (ks.mapM fun k => (o.getitem (a.map .ofKey ++ .str k :: rest)).map fun t => (k, t)).map .dict := by
  simp only [o.getitem_node hwf h]
  rw [goStruct_set _ _ _ _ _ _ _ _ (by simp), readLoop]
  simp only [gen_bind_pair]

end

/-! ## C63: writing -/

section
variable [Zero V]

theorem Obj.setitem_node (o : Obj V) (hwf : WFs o.cs.struct.entries o.cs.struct.order) {a es' o'}
    (h : IsAt o.cs.struct.entries o.cs.struct.order a es' o') (rest : List (PIdx (PyFn V))) (pay : Pay V) :
    o.setitem (a.map .ofKey ++ rest) pay =
      (let r := goStruct (setDisp o.cs.map) (o'.flatMap OrderItem.names) (travTable (setDisp o.cs.map) es') rest false a pay
        o.master
      (gen (r.1.map fun _ => ()), { o with master := r.2 })) := by
  rw [Obj.setitem_eq, Struct.keys, goStruct_at _ hwf h]
  rfl

/-- A loop while writing. -/
theorem writeLoop {α β γ : Type} (o : Obj V) (l : List α) (g : α → M (List V) β) (f : List β → γ)
    (pi : α → List (PIdx (PyFn V))) (pay : α → Pay V)
    (h : ∀ a ∈ l, ∀ m, ({ o with master := m } : Obj V).setitem (pi a) (pay a) =
      (gen ((g a m).1.map fun _ => ()), { o with master := (g a m).2 })) :
    (gen ((M.bind (M.forEach l g) (fun r => M.pure (f r)) o.master).1.map fun _ => ()),
      ({ o with master := (M.bind (M.forEach l g) (fun r => M.pure (f r)) o.master).2 } : Obj V)) =
      o.setAll (l.map fun a => (pi a, pay a)) := by
  have := setLoop o l g pi pay h o.master
  rw [bind_pure_run, ← this]
  rcases M.forEach l g o.master with ⟨r, m⟩
  cases r <;> rfl

theorem pair_run {β γ : Type} (o : Obj V) (x : M (List V) β) (f : β → γ) (m : List V) :
    (gen ((x m).1.map fun _ => ()), ({ o with master := (x m).2 } : Obj V)) =
      (gen ((M.bind x (fun r => M.pure (f r)) m).1.map fun _ => ()),
        { o with master := (M.bind x (fun r => M.pure (f r)) m).2 }) := by
  rw [bind_pure_run]
  rcases x m with ⟨r, m'⟩
  cases r <;> rfl

/-- **C63** (writing a list): `s[a, ..., rest] = L` performs `s[a, k, rest] = L[i]` for all entries `k`, `i` being the position
of `k` in the layout. -/
theorem C63_write_ellipsis (o : Obj V) (hwf : WFs o.cs.struct.entries o.cs.struct.order) (a : CIdx) (es' : List Entry)
    (o' : List OrderItem) (h : IsAt o.cs.struct.entries o.cs.struct.order a es' o') (rest : List (PIdx (PyFn V)))
    (L : List (Pay V)) (v : ℕ → Pay V) (hL : ∀ i < (o'.flatMap OrderItem.names).length, L[i]? = some (v i)) :
    o.setitem (a.map .ofKey ++ .ellipsis :: rest) (.list L) =
      o.setAll ((o'.flatMap OrderItem.names).zipIdx.map fun ki => (a.map .ofKey ++ .str ki.1 :: rest, v ki.2)) := by
  rw [o.setitem_node hwf h]
  simp only
  rw [goStruct_ellipsis, M.forEach_congr _ _ (fun ki => goStruct (setDisp o.cs.map) (o'.flatMap OrderItem.names)
    (travTable (setDisp o.cs.map) es') (.str ki.1 :: rest) false a (v ki.2))]
  · apply writeLoop
    intro ki _ m
    exact ({ o with master := m } : Obj V).setitem_node hwf h _ _
  · intro ki hki
    have hi := List.snd_lt_of_mem_zipIdx hki
    have hL := hL ki.2 (by simpa using hi)
    have hlt := (List.getElem?_eq_some_iff.1 hL).1
    have : payloadUnpack (.list L) (.int ki.2) = .ok (v ki.2) := by
      rw [payloadUnpack, if_neg (by omega), pyIndex]
      simp only [if_neg (show ¬ ((ki.2 : ℕ) : ℤ) < 0 by omega), Int.toNat_natCast, hL]
    rw [this]
    rfl

/-- **C63** (writing one value): `s[a, ..., rest] = v` for a number, a matrix or `repeated(v)` performs `s[a, k, rest] = v` for
all entries `k`. -/
theorem C63_write_value (o : Obj V) (hwf : WFs o.cs.struct.entries o.cs.struct.order) (a : CIdx) (es' : List Entry)
    (o' : List OrderItem) (h : IsAt o.cs.struct.entries o.cs.struct.order a es' o') (rest : List (PIdx (PyFn V)))
    (pay v : Pay V) (hp : pay = .rep v ∨ (pay = v ∧ ((∃ x, v = .num x) ∨ ∃ m, v = .mat m))) :
    o.setitem (a.map .ofKey ++ .ellipsis :: rest) pay =
      o.setAll ((o'.flatMap OrderItem.names).map fun k => (a.map .ofKey ++ .str k :: rest, v)) := by
  rw [o.setitem_node hwf h]
  simp only
  rw [goStruct_ellipsis, M.forEach_congr _ _ (fun ki => goStruct (setDisp o.cs.map) (o'.flatMap OrderItem.names)
    (travTable (setDisp o.cs.map) es') (.str ki.1 :: rest) false a v)]
  · rw [writeLoop o _ _ _ (fun ki : String × ℕ => a.map .ofKey ++ .str ki.1 :: rest) (fun _ => v)]
    · congr 1
      rw [show (fun ki : String × ℕ => (a.map PIdx.ofKey ++ PIdx.str ki.1 :: rest, v)) =
        (fun k : String => (a.map PIdx.ofKey ++ PIdx.str k :: rest, v)) ∘ Prod.fst from rfl, ← List.map_map,
        List.zipIdx_map_fst]
    · intro ki _ m
      exact ({ o with master := m } : Obj V).setitem_node hwf h _ _
  · intro ki hki
    rcases hp with rfl | ⟨rfl, ⟨x, rfl⟩ | ⟨m, rfl⟩⟩ <;> rfl

/-- **C63** (list too short): `s[a, ..., rest] = L` raises if `L` has fewer elements than there are entries. -/
theorem C63_short (o : Obj V) (hwf : WFs o.cs.struct.entries o.cs.struct.order) (a : CIdx) (es' : List Entry)
    (o' : List OrderItem) (h : IsAt o.cs.struct.entries o.cs.struct.order a es' o') (rest : List (PIdx (PyFn V)))
    (L : List (Pay V)) (hL : L.length < (o'.flatMap OrderItem.names).length) :
    (o.setitem (a.map .ofKey ++ .ellipsis :: rest) (.list L)).1 = .error .generic := by
  rw [o.setitem_node hwf h]
  simp only
  rw [goStruct_ellipsis, bind_pure_run]
  obtain ⟨e, he⟩ := M.forEach_error (o'.flatMap OrderItem.names).zipIdx
    (fun ki => M.bind (ex (payloadUnpack (.list L) (.int ki.2))) fun pay' =>
      goStruct (setDisp o.cs.map) (o'.flatMap OrderItem.names) (travTable (setDisp o.cs.map) es') (.str ki.1 :: rest) false a
        pay') ((o'.flatMap OrderItem.names)[L.length], L.length)
    (by rw [List.mem_zipIdx_iff_getElem?]; simp [hL]) (by
      intro s
      exact ⟨.generic, by
        have : payloadUnpack (.list L) (.int L.length) = .error .generic := by
          rw [payloadUnpack, if_pos (by omega)]
        simp only [this]
        rfl⟩) o.master
  rw [he]
  rfl

/-- **C63** (writing a dict): `s[a, {}, rest] = d` performs `s[a, k, rest] = d[k]` for the keys of `d`, in the order of `d`. -/
theorem C63_write_dict (o : Obj V) (hwf : WFs o.cs.struct.entries o.cs.struct.order) (a : CIdx) (es' : List Entry)
    (o' : List OrderItem) (h : IsAt o.cs.struct.entries o.cs.struct.order a es' o') (rest : List (PIdx (PyFn V)))
    (items : List (String × Pay V)) :
    o.setitem (a.map .ofKey ++ .dict :: rest) (.dict items) =
      o.setAll (items.map fun kv => (a.map .ofKey ++ .str kv.1 :: rest, kv.2)) := by
  rw [o.setitem_node hwf h]
  simp only
  rw [goStruct_dict_items]
  apply writeLoop
  intro ki _ m
  rw [({ o with master := m } : Obj V).setitem_node hwf h]
  exact pair_run _ _ _ _

/-- **C63** (writing a dict to selected entries): `s[a, {k1, k2}, rest] = d` does this for those keys of `d` that are in the
set. -/
theorem C63_write_set (o : Obj V) (hwf : WFs o.cs.struct.entries o.cs.struct.order) (a : CIdx) (es' : List Entry)
    (o' : List OrderItem) (h : IsAt o.cs.struct.entries o.cs.struct.order a es' o') (ks : List String)
    (rest : List (PIdx (PyFn V))) (items : List (String × Pay V)) :
    o.setitem (a.map .ofKey ++ .set ks :: rest) (.dict items) =
      o.setAll ((items.filter fun kv => kv.1 ∈ ks).map fun kv => (a.map .ofKey ++ .str kv.1 :: rest, kv.2)) := by
  rw [o.setitem_node hwf h]
  simp only
  rw [goStruct_set_items]
  apply writeLoop
  intro ki _ m
  rw [({ o with master := m } : Obj V).setitem_node hwf h]
  exact pair_run _ _ _ _

/-- **C63** (writing one value to several entries): with a payload that is not a dict, `s[a, {}, rest] = v` performs
`s[a, k, rest] = v` for all entries and `s[a, {k1, k2}, rest] = v` for the given ones. -/
theorem C63_write_all (o : Obj V) (hwf : WFs o.cs.struct.entries o.cs.struct.order) (a : CIdx) (es' : List Entry)
    (o' : List OrderItem) (h : IsAt o.cs.struct.entries o.cs.struct.order a es' o') (ks : List String)
    (rest : List (PIdx (PyFn V))) (v : Pay V) (hv : ∀ items, v ≠ .dict items) :
    o.setitem (a.map .ofKey ++ .dict :: rest) v = o.setAll (es'.map fun e => (a.map .ofKey ++ .str e.name :: rest, v)) ∧
    o.setitem (a.map .ofKey ++ .set ks :: rest) v = o.setAll (ks.map fun k => (a.map .ofKey ++ .str k :: rest, v)) := by
  constructor
  · rw [o.setitem_node hwf h]
    simp only
    rw [goStruct_dict _ _ (h.wf hwf).nodup _ _ _ _ hv]
    apply writeLoop
    intro ki _ m
    rw [({ o with master := m } : Obj V).setitem_node hwf h]
    exact pair_run _ _ _ _
  · rw [o.setitem_node hwf h]
    simp only
    rw [goStruct_set _ _ _ _ _ _ _ _ hv]
    apply writeLoop
    intro ki _ m
    rw [({ o with master := m } : Obj V).setitem_node hwf h]
    exact pair_run _ _ _ _

end

/-! ## C61 -/

section
variable [Zero V]

/-- Writing all entries, in any order. -/
theorem setAll_entries {c : CS} {ls} (hb : Built c ls) (hwf : WFs c.struct.entries c.struct.order)
    {prio : List (CIdx × SMat V)} (E : List Entry) (hE : E.Perm c.struct.entries) (pay : Entry → Pay V) (vals : CIdx → List V)
    (hcov : ∀ e ∈ c.struct.entries, (pay e).Covers e.dims)
    (hacc : ∀ e ∈ c.struct.entries, ∀ is, List.Forall₂ (· < ·) is e.dims → ∃ q sp f, (pay e).at is = some q ∧
      Accepts c.struct.entries (.str e.name :: natKeys is) q sp f ∧ vals (.str e.name :: natKeys is) = sp.nz.map f)
    (master : List V) (hlen : master.length = c.size) :
    ∃ master', (⟨c, master, prio⟩ : Obj V).setAll (E.map fun e => ([.str e.name], pay e)) = (.ok (), ⟨c, master', prio⟩) ∧
      master'.length = c.size ∧ master' = (tops c.struct.entries c.struct.order).flatMap vals := by
  haveI : Inhabited Sparsity := ⟨.dense 0⟩
  haveI : Inhabited (Pay V) := ⟨.none⟩
  choose! q sp f hq ha hv using hacc
  let ws : List (CIdx × Pay V × Sparsity × (ℕ × ℕ → V)) := E.flatMap fun e => (tuples e.dims).map fun is =>
    (.str e.name :: natKeys is, q e is, sp e is, f e is)
  have hws : ∀ w ∈ ws, ∃ e ∈ c.struct.entries, ∃ is, is ∈ tuples e.dims ∧
      w = (.str e.name :: natKeys is, q e is, sp e is, f e is) := by
    intro w hw
    obtain ⟨e, he, hw⟩ := List.mem_flatMap.1 hw
    obtain ⟨is, his, rfl⟩ := List.mem_map.1 hw
    exact ⟨e, hE.mem_iff.1 he, is, his, rfl⟩
  have hpw : ws.Pairwise fun v w => ¬ v.1 <+: w.1 ∧ ¬ w.1 <+: v.1 := by
    rw [List.pairwise_flatMap]
    constructor
    · intro e he
      rw [List.pairwise_map]
      refine (tuples_nodup e.dims).imp_of_mem ?_
      intro a b ha hb hne
      simp only [List.cons_prefix_cons, true_and]
      have hl : (natKeys a).length = (natKeys b).length := by
        simp only [natKeys, List.length_map, tuples_length ha, tuples_length hb]
      exact ⟨fun h => hne (natKeys_inj (h.eq_of_length hl)), fun h => hne (natKeys_inj (h.eq_of_length hl.symm)).symm⟩
    · have hn : (E.map Entry.name).Nodup := (hE.map _).nodup_iff.2 hwf.nodup
      rw [List.Nodup, List.pairwise_map] at hn
      refine hn.imp ?_
      intro e e' hne v hv w hw
      obtain ⟨a, _, rfl⟩ := List.mem_map.1 hv
      obtain ⟨b, _, rfl⟩ := List.mem_map.1 hw
      simp only [List.cons_prefix_cons, Key.str.injEq]
      exact ⟨fun h => hne h.1, fun h => hne h.1.symm⟩
  obtain ⟨master', h1, h2, h3, _⟩ := setAll_accepts hb hwf (prio := prio) ws (by
    intro w hw
    obtain ⟨e, he, is, his, rfl⟩ := hws w hw
    exact ha e he is (mem_tuples.1 his)) hpw master hlen
  refine ⟨master', ?_, h2, ?_⟩
  · rw [Obj.setAll_flatMap E _ (fun e => (tuples e.dims).map fun is =>
      ((([] ++ .str e.name :: ([] ++ natKeys is) : CIdx)).map .ofKey, ((pay e).at is).getD .none)) c ?_ _ rfl]
    · have : (E.flatMap fun e => (tuples e.dims).map fun is =>
          ((([] ++ .str e.name :: ([] ++ natKeys is) : CIdx)).map (PIdx.ofKey (F := PyFn V)), ((pay e).at is).getD .none)) =
          ws.map fun w => (w.1.map .ofKey, w.2.1) := by
        rw [List.map_flatMap]
        apply List.flatMap_congr
        intro e he
        rw [List.map_map]
        apply List.map_congr_left
        intro is his
        simp only [Function.comp, hq e (hE.mem_iff.1 he) is (mem_tuples.1 his), Option.getD_some, List.nil_append]
      rw [this, h1]
    · intro e he o ho
      exact setitem_dist c hwf .root (hE.mem_iff.1 he) [] [] rfl .nil (pay e) (hcov e (hE.mem_iff.1 he)) o ho
  · refine (hb.master_tops hwf h2).trans ?_
    apply List.flatMap_congr
    intro t ht
    obtain ⟨e, he, ks, hks, rfl⟩ := (mem_tops hwf).1 ht
    have hks := mem_listindices.2 hks
    rw [listindices_tuples] at hks
    obtain ⟨is, his, rfl⟩ := List.mem_map.1 hks
    rw [h3 (.str e.name :: natKeys is, q e is, sp e is, f e is) (List.mem_flatMap.2 ⟨e, hE.mem_iff.2 he,
      List.mem_map.2 ⟨is, his, rfl⟩⟩), hv e he is (mem_tuples.1 his)]

omit [Zero V] in
/-- What has been read as nested lists is good for writing. -/
theorem nest_covers (ds : List ℕ) : ∀ g : List ℕ → SMat V, (nest ds g).toPay.Covers ds ∧
    ∀ is, List.Forall₂ (· < ·) is ds → (nest ds g).toPay.at is = some (.mat (g is)) := by
  induction ds with
  | nil =>
    intro g
    refine ⟨trivial, ?_⟩
    intro is his
    cases his
    rw [St.nest, Tree.toPay]
    rfl
  | cons d ds ih =>
    intro g
    have hsub : ∀ i < d, (nest (d :: ds) g).toPay.sub i = some (nest ds fun is => g (i :: is)).toPay := by
      intro i hi
      rw [St.nest, Tree.toPay, toPays_eq, Pay.sub]
      simp [hi]
    constructor
    · intro i hi
      exact ⟨_, hsub i hi, (ih _).1⟩
    · intro is his
      cases his with
      | @cons i _ is _ h1 h2 =>
        rw [Pay.at, hsub i h1]
        exact (ih _).2 is h2

theorem SMat.map_at' {m : SMat V} (h : m.WF) : m.sp.nz.map m.at' = m.data := by
  apply List.ext_getElem
  · rw [List.length_map, h.2]
  · intro j h1 h2
    rw [List.getElem_map]
    exact SMat.at'_eq h.1 (List.getElem?_eq_getElem _) (List.getElem?_eq_getElem _)

theorem stored_length {c : CS} {ls} (hb : Built c ls) (hwf : WFs c.struct.entries c.struct.order) {master : List V}
    {a e sp} (ha : IsPart c.struct.entries a e sp) : (⟨sp, stored c master a⟩ : SMat V).WF := by
  obtain ⟨i, hg, hw, hnd, hin, rfl⟩ := hb.part hwf ha
  exact ⟨hw.1, by rw [stored, hg]; simpa using hw.2⟩

end

section
variable [Zero V] [Add V] [Sub V]

/-- What is read from a part can be written to the part of another struct with the same layout, which then holds the same. -/
theorem read_accepts (hv : ∀ x : V, x + x - x = x) {c : CS} {ls} (hb : Built c ls)
    (hwf : WFs c.struct.entries c.struct.order) {master : List V} (hlen : master.length = c.size) {a e sp}
    (ha : IsPart c.struct.entries a e sp)
    (hs : ∀ p, e = some p → p.symm = true → ∃ osp, IsSymm p osp ∧ ∀ i j, (i, j) ∈ osp.nz ↔ (j, i) ∈ osp.nz) :
    ∃ m f, (⟨c, master, []⟩ : Obj V).getitem (a.map .ofKey) = .ok (.leaf m) ∧ Accepts c.struct.entries a (.mat m) sp f ∧
      stored c master a = sp.nz.map f := by
  have hst := stored_length (master := master) hb hwf ha
  by_cases hsy : symmOf e = true
  · obtain ⟨p, rfl⟩ : ∃ p, e = some p := by
      cases e with
      | none => cases hsy
      | some p => exact ⟨p, rfl⟩
    obtain ⟨osp, hS, hmir⟩ := hs p rfl hsy
    cases ha with
    | leaf ha =>
      have hpat : IsSymm.pattern osp = osp := by
        refine Sparsity.Canon.ext (Sparsity.ofPred_canon _ _ _) hS.canon rfl hS.square ?_
        rintro ⟨i, j⟩
        simp only [IsSymm.pattern, Sparsity.mem_ofPred, decide_eq_true_eq]
        constructor
        · rintro ⟨_, h | h⟩
          · exact h.1
          · exact (hmir i j).2 h.1
        · intro h
          have := hS.canon.mem h
          refine ⟨⟨this.1, by rw [hS.square]; exact this.2⟩, ?_⟩
          rcases Nat.le_total i j with h' | h'
          · exact .inl ⟨h, h'⟩
          · exact .inr ⟨(hmir i j).1 h, h'⟩
      have hg := getitem_stored hb hwf hlen (.leaf ha)
      rw [if_pos hsy, triu2symm_eq hS rfl, hpat] at hg
      refine ⟨_, _, hg, .symm ha hS (.mat _) (SMat.fill_WF hS.canon _) (.inl ⟨rfl, rfl⟩), ?_⟩
      refine (SMat.map_at' hst).symm.trans ?_
      apply List.map_congr_left
      intro q hq
      have hm := hS.mem_sp.1 hq
      rw [SMat.fill_at' hS.canon, if_pos hm.1]
      split
      · rw [hv]
      · rw [if_pos (by omega)]
  · have hg := getitem_stored hb hwf hlen ha
    rw [if_neg hsy] at hg
    refine ⟨_, _, hg, .plain ha ?_ (.mat _) hst (.same rfl rfl), (SMat.map_at' hst).symm⟩
    rintro p rfl
    simpa [symmOf] using hsy

/-- The entries of a struct for which reading and writing back is meant to work: nested structs have an element, and entries
of type 'symm' have a symmetric pattern. -/
structure Readable (es : List Entry) : Prop where
  nested : ∀ n d es' o', Entry.nested n d es' o' ∈ es → ∃ a p, IsLeaf es' a p
  symm : ∀ n d p, Entry.prim n d p ∈ es → p.symm = true →
    ∃ osp, IsSymm p osp ∧ ∀ i j, (i, j) ∈ osp.nz ↔ (j, i) ∈ osp.nz

/-- What is read from the entries, and that it can be written. -/
theorem read_entries (hv : ∀ x : V, x + x - x = x) {c : CS} {ls} (hb : Built c ls)
    (hwf : WFs c.struct.entries c.struct.order) (hr : Readable c.struct.entries) {master : List V}
    (hlen : master.length = c.size) :
    ∃ t : Entry → Tree (SMat V), (∀ e ∈ c.struct.entries, (⟨c, master, []⟩ : Obj V).getitem [.str e.name] = .ok (t e)) ∧
      ∀ (prio : List (CIdx × SMat V)) (master' : List V), master'.length = c.size →
        ∀ E : List Entry, E.Perm c.struct.entries →
        (⟨c, master', prio⟩ : Obj V).setAll (E.map fun e => ([.str e.name], (t e).toPay)) = (.ok (), ⟨c, master, prio⟩) := by
  have key : ∀ e ∈ c.struct.entries, ∀ is, List.Forall₂ (· < ·) is e.dims → ∃ (m : SMat V) (sp : Sparsity) (f : ℕ × ℕ → V),
      (⟨c, master, []⟩ : Obj V).getitem ((.str e.name :: natKeys is : CIdx).map .ofKey) = .ok (.leaf m) ∧
      Accepts c.struct.entries (.str e.name :: natKeys is) (.mat m) sp f ∧
      stored c master (.str e.name :: natKeys is) = sp.nz.map f := by
    intro e he is his
    have hks := natKeys_inDims his
    cases e with
    | prim n d p =>
      obtain ⟨m, f, h⟩ := read_accepts hv hb hwf hlen (.leaf (.prim he hks)) (by
        rintro _ ⟨⟩
        exact hr.symm n d p he)
      exact ⟨m, _, f, h⟩
    | nested n d es' o' =>
      obtain ⟨a, p, hl⟩ := hr.nested n d es' o' he
      obtain ⟨m, f, h⟩ := read_accepts hv hb hwf hlen (.node (.top he hks) hl) (by rintro _ ⟨⟩)
      exact ⟨m, _, f, h⟩
  haveI : Inhabited Sparsity := ⟨.dense 0⟩
  haveI : Inhabited (SMat V) := ⟨.scalar 0⟩
  choose! m sp f h1 h2 h3 using key
  refine ⟨fun e => nest e.dims (m e), ?_, ?_⟩
  · intro e he
    refine getitem_nest (⟨c, master, []⟩ : Obj V) hwf (a := []) .root he [] [] rfl .nil _ ?_
    intro is his
    exact h1 e he is his
  · intro prio master' hlen' E hE
    obtain ⟨m', g1, g2, g3⟩ := setAll_entries hb hwf (prio := prio) E hE (fun e => (nest e.dims (m e)).toPay)
      (stored c master) (fun e he => (nest_covers _ _).1) (by
        intro e he is his
        exact ⟨_, _, _, (nest_covers _ _).2 is his, h2 e he is his, h3 e he is his⟩) master' hlen'
    rw [g1, g3, ← hb.master_tops hwf hlen]

/-- **C61** (what holds): for every struct without empty nested structs and without 'symm' entries that have an unsymmetric
pattern, and for values with `x + x - x = x` (not `inf`), `s[...]` and `s[{}]` can be read, and assigning what was read to
`t[...]` (or `t[{}]`) of any other struct of the same layout makes their data equal.
Missing: empty nested structs and unsymmetric patterns, for which the claim is false (`C61_refuted_empty`,
`C61_refuted_symm`). -/
theorem C61_all_partial (hv : ∀ x : V, x + x - x = x) (s : Struct) (hwf : WFs s.entries s.order) (hr : Readable s.entries)
    (c : CS) (hc : CS.ofStruct s = .ok c) (master : List V) (hlen : master.length = c.size) :
    (∃ t, (⟨c, master, []⟩ : Obj V).getitem [.ellipsis] = .ok t ∧ ∀ (prio : List (CIdx × SMat V)) (master' : List V),
      master'.length = c.size →
      (⟨c, master', prio⟩ : Obj V).setitem [.ellipsis] t.toPay = (.ok (), ⟨c, master, prio⟩)) ∧
    ∃ t, (⟨c, master, []⟩ : Obj V).getitem [.dict] = .ok t ∧ ∀ (prio : List (CIdx × SMat V)) (master' : List V),
      master'.length = c.size →
      (⟨c, master', prio⟩ : Obj V).setitem [.dict] t.toPay = (.ok (), ⟨c, master, prio⟩) := by
  obtain ⟨c', ls, hc', rfl, hb⟩ := ofStruct_built hwf
  rw [hc] at hc'
  cases hc'
  obtain ⟨t, h1, h2⟩ := read_entries hv hb hwf hr hlen
  constructor
  · obtain ⟨E, hE, hEk⟩ := perm_map_exists Entry.name hwf.perm c.struct.entries rfl
    have hkeys : c.struct.order.flatMap OrderItem.names = E.map Entry.name := hEk.symm
    refine ⟨.list (E.map t), ?_, ?_⟩
    · have := C63_read_ellipsis (⟨c, master, []⟩ : Obj V) hwf [] _ _ .root []
      rw [List.map_nil, List.nil_append] at this
      rw [this]
      simp only
      rw [hkeys, List.mapM_map, except_mapM_ok E _ t]
      · rfl
      · intro e he
        exact h1 e (hE.mem_iff.1 he)
    · intro prio master' hlen'
      have := C63_write_ellipsis (⟨c, master', prio⟩ : Obj V) hwf [] _ _ .root [] (toPays (E.map t))
        (fun i => (((E.map t).map Tree.toPay)[i]?).getD .none) (by
          intro i hi
          simp only [hkeys, List.length_map] at hi
          rw [toPays_eq, List.getElem?_eq_getElem (by simpa using hi)]
          rfl)
      rw [List.map_nil, List.nil_append] at this
      rw [Tree.toPay, this, ← h2 prio master' hlen' E hE]
      congr 1
      simp only
      rw [hkeys]
      apply List.ext_getElem
      · simp
      · intro i g1 g2
        simp at g2
        simp [g2]
  · refine ⟨.dict (c.struct.entries.map fun e => (e.name, t e)), ?_, ?_⟩
    · have := C63_read_dict (⟨c, master, []⟩ : Obj V) hwf [] _ _ .root []
      rw [List.map_nil, List.nil_append] at this
      rw [this, except_mapM_ok _ _ (fun e => (e.name, t e))]
      · rfl
      · intro e he
        rw [List.nil_append, h1 e he]
        rfl
    · intro prio master' hlen'
      have := C63_write_dict (⟨c, master', prio⟩ : Obj V) hwf [] _ _ .root []
        (toItems (c.struct.entries.map fun e => (e.name, t e)))
      rw [List.map_nil, List.nil_append] at this
      rw [Tree.toPay, this, ← h2 prio master' hlen' _ (List.Perm.refl _), toItems_eq, List.map_map, List.map_map]
      rfl

omit [Zero V] [Add V] [Sub V] in
theorem gen_error {α : Type} {x : Except PyErr α} {e : PyErr} (h : gen x = .error e) : e = .generic := by
  cases x <;> cases h
  rfl

/-- **C61 fails** for every struct with an empty nested struct: `s[...]` raises. -/
theorem C61_empty (s : Struct) (hwf : WFs s.entries s.order) (c : CS) (hc : CS.ofStruct s = .ok c) (master : List V)
    (n : String) (o' : List OrderItem) (hn : Entry.nested n [] [] o' ∈ s.entries) :
    (⟨c, master, []⟩ : Obj V).getitem [.ellipsis] = .error .generic := by
  obtain ⟨c', ls, hc', rfl, hb⟩ := ofStruct_built hwf
  rw [hc] at hc'
  cases hc'
  have hg : dictGet c.map [.str n] = none := by
    cases hg : dictGet c.map [.str n] with
    | none => rfl
    | some m =>
      obtain ⟨d, p, hp⟩ := hb.get_isPart hwf hg
      have hat : IsAt c.struct.entries c.struct.order [.str n] [] o' := .node (.top hn .nil)
      obtain ⟨e', ks', c', he', _⟩ := (hat.leaf_inv hwf hp).decode (hat.wf hwf)
      cases he'
  have h1 : (⟨c, master, []⟩ : Obj V).getitem [.str n] = .error .generic := by
    have := (⟨c, master, []⟩ : Obj V).getitem_at hwf (a := []) .root hn (ks := []) (ds1 := []) (ds2 := []) rfl .nil []
    have e : ([] ++ Key.str (Entry.nested n [] [] o').name :: [] : CIdx).map (PIdx.ofKey (F := PyFn V)) ++ [] = [.str n] := rfl
    rw [e] at this
    rw [this, goEntry, Entry.leafTrav]
    show gen (M.bind ((getDisp c.map [] master).call false .none [.str n] none none) _ ()).1 = _
    simp only [getDisp, getCall, hg, ex, M.lift, M.bind, gen]
  have := C63_read_ellipsis (⟨c, master, []⟩ : Obj V) hwf [] _ _ .root []
  rw [List.map_nil, List.nil_append] at this
  rw [this]
  simp only [List.nil_append]
  have hk : n ∈ c.struct.order.flatMap OrderItem.names := hwf.perm.mem_iff.2 (List.mem_map.2 ⟨_, hn, rfl⟩)
  have herr : ∀ l : List String, n ∈ l → (l.mapM fun k => (⟨c, master, []⟩ : Obj V).getitem [.str k]) =
      .error .generic := by
    intro l hl
    induction l with
    | nil => cases hl
    | cons k l ih =>
      rw [List.mapM_cons]
      cases hk : (⟨c, master, []⟩ : Obj V).getitem [.str k] with
      | error e =>
        rw [Obj.getitem_eq] at hk
        rw [gen_error hk]
        rfl
      | ok t =>
        rcases List.mem_cons.1 hl with rfl | hl
        · rw [h1] at hk; cases hk
        · rw [ih hl]
          rfl
  rw [herr _ hk]
  rfl

end

/-- **C61** (counterexample): `s[...]` raises for a struct with an empty nested struct. -/
theorem C61_refuted_empty : ∃ (s : Struct) (c : CS), WFs s.entries s.order ∧ CS.ofStruct s = .ok c ∧
    ∀ master : List ℚ, (⟨c, master, []⟩ : Obj ℚ).getitem [.ellipsis] = .error .generic := by
  have hwf : WFs [Entry.nested "n" [] [] []] [.one "n"] := by
    refine .mk (by simp) (by simp [OrderItem.names, Entry.name]) (by simp) ?_
    intro n d es' o' h
    simp only [List.mem_singleton, Entry.nested.injEq] at h
    obtain ⟨_, _, rfl, rfl⟩ := h
    exact .mk (by simp) (by simp) (by simp) (by simp)
  obtain ⟨c, ls, h1, h2, hb⟩ := ofStruct_built (s := ⟨[Entry.nested "n" [] [] []], [.one "n"]⟩) hwf
  exact ⟨_, c, hwf, h1, fun master => C61_empty _ hwf c h1 master "n" [] List.mem_cons_self⟩

/-- A 2x2 entry of type 'symm' with a single nonzero above the diagonal. -/
def symm01 : Prim := ⟨(⟨2, 2, [(0, 1)]⟩ : Sparsity).inter (.upper 2), true, some ⟨2, 2, [(0, 1)]⟩, none⟩

theorem symm01_canon : (⟨2, 2, [(0, 1)]⟩ : Sparsity).Canon := by
  show List.Sublist [(0, 1)] [(0, 0), (1, 0), (0, 1), (1, 1)]
  decide

theorem symm01_isSymm : IsSymm symm01 ⟨2, 2, [(0, 1)]⟩ := ⟨rfl, rfl, symm01_canon, rfl, rfl⟩

/-- **C61** (counterexample): for an entry of type 'symm' with pattern `[[0, *], [0, 0]]`, `s[...]` has also the mirrored
nonzero and cannot be assigned. -/
theorem C61_refuted_symm : ∃ (s : Struct) (c : CS) (t : Tree (SMat ℚ)), WFs s.entries s.order ∧ CS.ofStruct s = .ok c ∧
    c.size = 1 ∧ (⟨c, [5], []⟩ : Obj ℚ).getitem [.ellipsis] = .ok t ∧
    ((⟨c, [7], []⟩ : Obj ℚ).setitem [.ellipsis] t.toPay).1 = .error .generic := by
  have hcan : symm01.sp.Canon := symm01_canon
  have hwf := oneStruct_wf hcan
  obtain ⟨c, h1, h2, hb⟩ := oneStruct_built hcan
  have hsize : c.size = 1 := by rw [hb.size]; rfl
  obtain ⟨i, _, _, _, _, _, hg⟩ := getitem_symm (V := ℚ) (master := [5]) hb (by rw [h2]; exact hwf) (by rw [hsize]; rfl)
    (by rw [h2]; exact oneStruct_leaf _) symm01_isSymm
  have hw := C44_symm (oneStruct symm01) hwf c h1 [(7 : ℚ)] [.str "P"] symm01 _ (oneStruct_leaf _) rfl rfl
  generalize hm : (SMat.fill (IsSymm.pattern ⟨2, 2, [(0, 1)]⟩) fun q => _ : SMat ℚ) = m at hg
  have hsp : m.sp = IsSymm.pattern ⟨2, 2, [(0, 1)]⟩ := by rw [← hm]; rfl
  have hw := hw (.mat m) m (.mat m) (by rw [hsp]; decide) (by rw [hsp]; decide)
  refine ⟨_, c, .list [.leaf m], hwf, h1, hsize, ?_, ?_⟩
  · have := C63_read_ellipsis (⟨c, [5], []⟩ : Obj ℚ) (by rw [h2]; exact hwf) [] _ _ .root []
    rw [List.map_nil, List.nil_append] at this
    rw [this]
    simp only [List.nil_append, h2]
    show Except.map Tree.list (["P"].mapM _) = _
    rw [List.mapM_cons]
    show Except.map Tree.list (Except.bind ((⟨c, [5], []⟩ : Obj ℚ).getitem [.str "P"]) _) = _
    erw [hg]
    rfl
  · have := C63_write_ellipsis (⟨c, [7], []⟩ : Obj ℚ) (by rw [h2]; exact hwf) [] _ _ .root [] [.mat m] (fun _ => .mat m) (by
      intro i hi
      simp only [h2] at hi
      obtain rfl : i = 0 := by simpa [oneStruct, OrderItem.names] using hi
      rfl)
    rw [List.map_nil, List.nil_append] at this
    show ((⟨c, [7], []⟩ : Obj ℚ).setitem [.ellipsis] (.list [.mat m])).1 = _
    rw [this]
    simp only [h2]
    show ((⟨c, [7], []⟩ : Obj ℚ).setAll [([.str "P"], .mat m)]).1 = _
    rw [Obj.setAll_single]
    erw [hw]

/-- For the struct of the other examples, with a repeated nested struct and repeated entries. -/
example (master master' : List ℚ) (c : CS) (hc : CS.ofStruct exStruct = .ok c) (h : master.length = 17)
    (h' : master'.length = 17) :
    ∃ t, (⟨c, master, []⟩ : Obj ℚ).getitem [.dict] = .ok t ∧
      (⟨c, master', []⟩ : Obj ℚ).setitem [.dict] t.toPay = (.ok (), ⟨c, master, []⟩) := by
  have hsize : c.size = 17 := by
    obtain ⟨c', g, hs, _⟩ := C39_size exStruct exStruct_wf
    rw [hc] at g
    cases g
    rw [hs]; rfl
  obtain ⟨_, t, h1, h2⟩ := C61_all_partial (V := ℚ) (fun x => by ring) exStruct exStruct_wf ⟨by
      intro n d es' o' hn
      simp only [exStruct, List.mem_cons, List.not_mem_nil, or_false, reduceCtorEq, Entry.nested.injEq, false_or] at hn
      obtain ⟨_, _, rfl, rfl⟩ := hn
      exact ⟨_, _, .prim List.mem_cons_self .nil⟩, by
      intro n d p hp hs
      simp only [exStruct, List.mem_cons, List.not_mem_nil, or_false, reduceCtorEq, Entry.prim.injEq, false_or] at hp
      rcases hp with ⟨_, _, rfl⟩ | ⟨_, _, rfl⟩ | ⟨_, _, rfl⟩ <;> cases hs⟩ c hc master (by rw [h, hsize])
  exact ⟨t, h1, h2 [] master' (by rw [h', hsize])⟩

/-- C63 for the second repetition of `n` in `exStruct`, which has the entries `u` and `P`. -/
example (c : CS) (hc : CS.ofStruct exStruct = .ok c) (m : List ℚ) (x y : Tree (SMat ℚ)) (f : ℕ → Pay ℚ)
    (hx : (⟨c, m, []⟩ : Obj ℚ).getitem [.str "n", .int 1, .str "u"] = .ok x)
    (hy : (⟨c, m, []⟩ : Obj ℚ).getitem [.str "n", .int 1, .str "P"] = .ok y) :
    (⟨c, m, []⟩ : Obj ℚ).getitem [.str "n", .int 1, .dict] = .ok (.dict [("u", x), ("P", y)]) ∧
    (⟨c, m, []⟩ : Obj ℚ).getitem [.str "n", .int 1, .set ["P"]] = .ok (.dict [("P", y)]) ∧
    (⟨c, m, []⟩ : Obj ℚ).setitem [.str "n", .int 1, .ellipsis] (.list [f 0, f 1]) =
      (⟨c, m, []⟩ : Obj ℚ).setAll [([.str "n", .int 1, .str "u"], f 0), ([.str "n", .int 1, .str "P"], f 1)] ∧
    (⟨c, m, []⟩ : Obj ℚ).setitem [.str "n", .int 1, .ellipsis] (.num 3) =
      (⟨c, m, []⟩ : Obj ℚ).setAll [([.str "n", .int 1, .str "u"], .num 3), ([.str "n", .int 1, .str "P"], .num 3)] ∧
    ((⟨c, m, []⟩ : Obj ℚ).setitem [.str "n", .int 1, .ellipsis] (.list [f 0])).1 = .error .generic ∧
    (⟨c, m, []⟩ : Obj ℚ).setitem [.str "n", .int 1, .dict] (.dict [("P", f 0), ("u", f 1)]) =
      (⟨c, m, []⟩ : Obj ℚ).setAll [([.str "n", .int 1, .str "P"], f 0), ([.str "n", .int 1, .str "u"], f 1)] ∧
    (⟨c, m, []⟩ : Obj ℚ).setitem [.str "n", .int 1, .set ["u"]] (.dict [("P", f 0), ("u", f 1)]) =
      (⟨c, m, []⟩ : Obj ℚ).setAll [([.str "n", .int 1, .str "u"], f 1)] ∧
    (⟨c, m, []⟩ : Obj ℚ).setitem [.str "n", .int 1, .dict] (.num 3) =
      (⟨c, m, []⟩ : Obj ℚ).setAll [([.str "n", .int 1, .str "u"], .num 3), ([.str "n", .int 1, .str "P"], .num 3)] := by
  have hs := ofStruct_struct hc
  have hwf : WFs c.struct.entries c.struct.order := by rw [hs]; exact exStruct_wf
  have hat : IsAt c.struct.entries c.struct.order [.str "n", .int 1] exNested [.one "u", .one "P"] := by
    rw [hs]
    exact .node (.top (dims := [2]) (by simp [exStruct]) (.cons ⟨1, by decide, rfl⟩ .nil))
  refine ⟨?_, ?_, ?_, C63_write_value (⟨c, m, []⟩ : Obj ℚ) hwf _ _ _ hat [] (.num 3) (.num 3) (.inr ⟨rfl, .inl ⟨3, rfl⟩⟩),
    C63_short (⟨c, m, []⟩ : Obj ℚ) hwf _ _ _ hat [] [f 0] (show 1 < 2 by omega),
    C63_write_dict (⟨c, m, []⟩ : Obj ℚ) hwf _ _ _ hat [] [("P", f 0), ("u", f 1)],
    C63_write_set (⟨c, m, []⟩ : Obj ℚ) hwf _ _ _ hat ["u"] [] [("P", f 0), ("u", f 1)],
    (C63_write_all (⟨c, m, []⟩ : Obj ℚ) hwf _ _ _ hat [] [] (.num 3) (by rintro items ⟨⟩)).1⟩
  · have h := C63_read_dict (⟨c, m, []⟩ : Obj ℚ) hwf _ _ _ hat []
    have hx' : (⟨c, m, []⟩ : Obj ℚ).getitem ([Key.str "n", Key.int 1].map .ofKey ++ [.str "u"]) = .ok x := hx
    have hy' : (⟨c, m, []⟩ : Obj ℚ).getitem ([Key.str "n", Key.int 1].map .ofKey ++ [.str "P"]) = .ok y := hy
    simp only [exNested, List.mapM_cons, List.mapM_nil, Entry.name, hx', hy'] at h
    exact h
  · have h := C63_read_set (⟨c, m, []⟩ : Obj ℚ) hwf _ _ _ hat ["P"] []
    have hy' : (⟨c, m, []⟩ : Obj ℚ).getitem ([Key.str "n", Key.int 1].map .ofKey ++ [.str "P"]) = .ok y := hy
    simp only [List.mapM_cons, List.mapM_nil, hy'] at h
    exact h
  · exact C63_write_ellipsis (⟨c, m, []⟩ : Obj ℚ) hwf _ _ _ hat [] [f 0, f 1] f (by
      intro i hi
      have : i = 0 ∨ i = 1 := by change i < 2 at hi; omega
      rcases this with rfl | rfl <;> rfl)

/-- C61: `s[...]` raises if an entry is a struct without entries. -/
example (c : CS) (hc : CS.ofStruct ⟨[.prim "x" [] ⟨.dense 1 1, false, none, none⟩, .nested "n" [] [] []], [.one "x", .one "n"]⟩ = .ok c)
    (x : ℚ) : (⟨c, [x], []⟩ : Obj ℚ).getitem [.ellipsis] = .error .generic :=
  C61_empty _ (.mk (by simp [Entry.name]) (by simp [Entry.name, OrderItem.names])
    (by simp; rintro _ _ _ - - rfl; exact Sparsity.dense_canon _ _)
    (by simp; rintro _ _ _ _ - - rfl rfl; exact .mk (by simp) (by simp) (by simp) (by simp))) c hc [x] "n" [] (by simp)

end CE.St
