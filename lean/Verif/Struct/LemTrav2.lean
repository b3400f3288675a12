import Verif.Struct.LemAcc

/-! # Traversals: positions inside nested structs, loops -/

namespace CE.St

theorem IsAt.wf {es o a es' o'} (hwf : WFs es o) (h : IsAt es o a es' o') : WFs es' o' := by
  cases h with
  | root => exact hwf
  | node h => exact h.wf hwf

theorem IsAt.leaf {es o a es' o' d p} (h : IsAt es o a es' o') (hd : IsLeaf es' d p) : IsLeaf es (a ++ d) p := by
  cases h with
  | root => exact hd
  | node h => exact h.leaf hd

theorem IsNode.sub {es a es' o' b es'' o''} (h : IsNode es a es' o') (hb : IsNode es' b es'' o'') :
    IsNode es (a ++ b) es'' o'' := by
  induction h with
  | top he hks => simpa using IsNode.nested he hks hb
  | nested he hks _ ih => simpa using IsNode.nested he hks (ih hb)

theorem IsAt.sub {es o a es' o' b es'' o''} (h : IsAt es o a es' o') (hb : IsNode es' b es'' o'') :
    IsNode es (a ++ b) es'' o'' := by
  cases h with
  | root => exact hb
  | node h => exact h.sub hb

theorem IsAt.part {es o a es' o' b e sp} (h : IsAt es o a es' o') (hb : IsPart es' b e sp) : IsPart es (a ++ b) e sp := by
  cases hb with
  | leaf hb => exact .leaf (h.leaf hb)
  | node hb hd => exact .node (h.sub hb) hd

theorem IsNode.leaf_inv {es o a es' o'} (hwf : WFs es o) (h : IsNode es a es' o') :
    ∀ {d p}, IsLeaf es (a ++ d) p → IsLeaf es' d p := by
  induction h generalizing o with
  | @top es n dims es' o' ks he hks =>
    intro d p hl
    obtain ⟨e, ks', c', he', hks', e1, hh⟩ := hl.decode hwf
    have hn : n = e.name := Key.str.inj (List.cons.inj e1).1
    cases eq_of_name hwf.nodup he he' hn
    have e2 : ks ++ d = ks' ++ c' := (List.cons.inj e1).2
    obtain ⟨rfl, rfl⟩ := List.append_inj e2 (by rw [hks.length, hks'.length]; rfl)
    rcases hh with ⟨_, _, e3, _⟩ | ⟨_, _, _, _, e3, _, h3⟩
    · cases e3
    · cases e3; exact h3
  | @nested es n dims es' o' ks c es'' o'' he hks hc ih =>
    intro d p hl
    obtain ⟨e, ks', c', he', hks', e1, hh⟩ := hl.decode hwf
    have hn : n = e.name := Key.str.inj (List.cons.inj e1).1
    cases eq_of_name hwf.nodup he he' hn
    have e2 : ks ++ (c ++ d) = ks' ++ c' := by
      have := (List.cons.inj e1).2
      rwa [List.append_eq, List.append_assoc] at this
    obtain ⟨rfl, rfl⟩ := List.append_inj e2 (by rw [hks.length, hks'.length]; rfl)
    rcases hh with ⟨_, _, e3, _⟩ | ⟨_, _, _, _, e3, _, h3⟩
    · cases e3
    · cases e3; exact ih (hwf.sub _ _ _ _ he) h3

theorem IsAt.leaf_inv {es o a es' o'} (hwf : WFs es o) (h : IsAt es o a es' o') {d p} (hl : IsLeaf es (a ++ d) p) :
    IsLeaf es' d p := by
  cases h with
  | root => exact hl
  | node h => exact h.leaf_inv hwf hl

/-- Only parts are in the map. -/
theorem Built.get_isPart {c : CS} {ls} (hb : Built c ls) (hwf : WFs c.struct.entries c.struct.order) {a : CIdx} {m : IMat}
    (h : dictGet c.map a = some m) : ∃ d p, IsLeaf c.struct.entries (a ++ d) p := by
  rw [hb.get] at h
  split at h
  · obtain ⟨pre, sp, post, e, _⟩ := mem_layoutOf (mem_of_dictGet h)
    obtain ⟨p, hp, _⟩ := hb.leaf (a, sp) (by rw [e]; simp)
    exact ⟨[], p, by rwa [List.append_nil]⟩
  · rename_i hne
    obtain ⟨x, hx⟩ := List.exists_mem_of_ne_nil _ hne
    rw [below, List.mem_filterMap] at hx
    obtain ⟨y, hy, e⟩ := hx
    split at e
    · rename_i ha
      obtain ⟨pre, sp, post, e', _⟩ := mem_layoutOf hy
      obtain ⟨p, hp, _⟩ := hb.leaf (y.1, sp) (by rw [e']; simp)
      obtain ⟨_, _, d, _, _, e3⟩ := (mem_ancestors_tail hwf hp a).1 ha
      simp only at hp
      rw [e3] at hp
      exact ⟨d, p, hp⟩
    · cases e

/-- An index with a repeat index outside the repeat counts is not in the map. -/
theorem Built.get_out {c : CS} {ls} (hb : Built c ls) (hwf : WFs c.struct.entries c.struct.order) {a es' o'}
    (h : IsAt c.struct.entries c.struct.order a es' o') {e : Entry} (he : e ∈ es') {ks : CIdx}
    (hl : ks.length = e.dims.length) (hks : ¬ InDims ks e.dims) : dictGet c.map (a ++ .str e.name :: ks) = none := by
  cases hg : dictGet c.map (a ++ .str e.name :: ks) with
  | none => rfl
  | some m =>
    obtain ⟨d, p, hp⟩ := hb.get_isPart hwf hg
    rw [List.append_assoc] at hp
    have hp := h.leaf_inv hwf hp
    obtain ⟨e', ks', c', he', hks', e1, _⟩ := hp.decode (h.wf hwf)
    have hn : e.name = e'.name := Key.str.inj (List.cons.inj e1).1
    cases eq_of_name (h.wf hwf).nodup he he' hn
    have e2 : ks ++ d = ks' ++ c' := (List.cons.inj e1).2
    obtain ⟨rfl, _⟩ := List.append_inj e2 (by rw [hl, hks'.length])
    exact absurd hks' hks

section
variable {σ V F R : Type}

theorem goStruct_at (d : Disp σ V F R) {es o a es' o'} (hwf : WFs es o) (h : IsAt es o a es' o')
    (rest : List (PIdx F)) (inner : Bool) (c : CIdx) (pay : Pay V) :
    goStruct d (o.flatMap OrderItem.names) (travTable d es) (a.map .ofKey ++ rest) inner c pay =
      goStruct d (o'.flatMap OrderItem.names) (travTable d es') rest inner (c ++ a) pay := by
  cases h with
  | root => simp
  | node h => exact goStruct_node d hwf h _ rest inner c pay

/-- The canonical index of an entry with some leading repeat indices leads to the traversal of the entry. -/
theorem goStruct_at_entry (d : Disp σ V F R) {es o a es' o'} (hwf : WFs es o) (h : IsAt es o a es' o') {e : Entry}
    (he : e ∈ es') {ks : CIdx} {ds1 ds2 : List ℕ} (hds : e.dims = ds1 ++ ds2) (hks : InDims ks ds1)
    (rest : List (PIdx F)) (inner : Bool) (c : CIdx) (pay : Pay V) :
    goStruct d (o.flatMap OrderItem.names) (travTable d es) ((a ++ .str e.name :: ks).map .ofKey ++ rest) inner c pay =
      goEntry d (Entry.leafTrav d e) ds2 rest inner (c ++ (a ++ .str e.name :: ks)) pay := by
  rw [List.map_append, List.append_assoc, goStruct_at d hwf h, List.map_cons, List.cons_append]
  show goStruct d _ _ (.str e.name :: _) inner _ pay = _
  rw [goStruct_entry d _ (h.wf hwf).nodup he, hds, goEntry_ints d _ hks]
  congr 1
  simp

theorem goEntry_slice (d : Disp σ V F R) (leaf : Trav σ V F R) (s : ℕ) (ds : List ℕ) (a b st : Option ℤ)
    (rest : List (PIdx F)) (inner : Bool) (c : CIdx) (pay : Pay V) :
    goEntry d leaf (s :: ds) (.slice a b st :: rest) inner c pay =
      M.bind (ex (sliceList a b st s)) fun is => M.bind (M.forEach is fun i =>
        M.bind (ex (payloadUnpack pay (.int i))) fun pay' =>
          goEntry d leaf (s :: ds) (.int i :: rest) inner c pay') fun r => M.pure (.list r) := by
  rw [goEntry]
  simp only [goEntry_int]

theorem goEntry_list (d : Disp σ V F R) (leaf : Trav σ V F R) (s : ℕ) (ds : List ℕ) (l : List ℤ)
    (rest : List (PIdx F)) (inner : Bool) (c : CIdx) (pay : Pay V) :
    goEntry d leaf (s :: ds) (.list (l.map .int) :: rest) inner c pay =
      M.bind (M.forEach l fun i =>
        M.bind (ex (payloadUnpack pay (.int i))) fun pay' =>
          goEntry d leaf (s :: ds) (.int i :: rest) inner c pay') fun r => M.pure (.list r) := by
  rw [goEntry]
  simp only [goEntry_int]
  congr 1
  induction l with
  | nil => rfl
  | cons i l ih => rw [List.map_cons, M.forEach, M.forEach, ih]

theorem goEntry_all (d : Disp σ V F R) (leaf : Trav σ V F R) (ds : List ℕ) (inner : Bool) (c : CIdx) (pay : Pay V) :
    goEntry d leaf ds (ds.map fun _ => .all) inner c pay = goEntry d leaf ds [] inner c pay := by
  cases ds with
  | nil => rfl
  | cons s ds =>
    rw [List.map_cons]
    show goEntry d leaf (s :: ds) (.slice none none none :: _) inner c pay = _
    rw [goEntry, goEntry]

/-- The index of all repetitions. -/
theorem sliceList_all (n : ℕ) : sliceList none none none n = .ok ((List.range n).map fun i : ℕ => (i : ℤ)) := by
  rw [sliceList]
  simp only [Option.getD_none, one_ne_zero, if_false]
  have h1 : ¬ ((1 : ℤ) < 0) := by decide
  simp only [h1, if_false]
  congr 1
  have : (if (0 : ℤ) < n then ((n : ℤ) - 0 - 1) / 1 + 1 else 0).toNat = n := by
    split <;> simp <;> omega
  rw [this]
  apply List.map_congr_left
  intro i _
  omega

theorem goEntry_pending (d : Disp σ V F R) (leaf : Trav σ V F R) (s : ℕ) (ds : List ℕ)
    (inner : Bool) (c : CIdx) (pay : Pay V) :
    goEntry d leaf (s :: ds) [] inner c pay =
      M.bind (M.forEach ((List.range s).map fun i : ℕ => (i : ℤ)) fun i =>
        M.bind (ex (payloadUnpack pay (.int i))) fun pay' =>
          goEntry d leaf (s :: ds) [.int i] inner c pay') fun r => M.pure (.list r) := by
  rw [goEntry, sliceList_all]
  simp only [goEntry_int, goEntry_all]
  rfl

end

/-! ## Loops -/

theorem M.forEach_congr {σ α β : Type} (l : List α) (f g : α → M σ β) (h : ∀ a ∈ l, f a = g a) :
    M.forEach l f = M.forEach l g := by
  induction l with
  | nil => rfl
  | cons a l ih =>
    rw [M.forEach, M.forEach, h a List.mem_cons_self, ih fun b hb => h b (List.mem_cons_of_mem _ hb)]

/-- A loop of a traversal without state. -/
theorem M.forEach_unit {α β : Type} (l : List α) (f : α → M Unit β) :
    gen (M.forEach l f ()).1 = l.mapM fun a => gen (f a ()).1 := by
  induction l with
  | nil => rfl
  | cons a l ih =>
    rw [List.mapM_cons, M.forEach, M.bind]
    rcases hf : f a () with ⟨r, u⟩
    cases r with
    | error e => rfl
    | ok b =>
      simp only [gen, M.bind] at ih ⊢
      rw [← ih]
      rcases hg : M.forEach l f u with ⟨r', u'⟩
      cases r' <;> rfl

theorem gen_gen {α : Type} (x : Except PyErr α) : gen (gen x) = gen x := by cases x <;> rfl

theorem gen_map {α β : Type} (x : Except PyErr α) (f : α → β) : gen (x.map f) = (gen x).map f := by cases x <;> rfl

/-- `Struct.traverse` maps exceptions. -/
theorem Struct.traverse_fst {σ V F R : Type} (s : Struct) (d : Disp σ V F R) (pi : List (PIdx F)) (pay : Pay V) (st : σ) :
    s.traverse d pi pay st = (gen (goStruct d s.keys (travTable d s.entries) pi false [] pay st).1,
      (goStruct d s.keys (travTable d s.entries) pi false [] pay st).2) := by
  rw [Struct.traverse]
  rcases goStruct d s.keys (travTable d s.entries) pi false [] pay st with ⟨r, u⟩
  cases r <;> rfl

end CE.St
