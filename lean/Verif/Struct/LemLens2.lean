import Verif.Struct.PropsLens
import Verif.Struct.PropsAll

/-! # Writing what has been read from other contents

For one power index, what is read depends on the contents at a set of positions, and assigning what is read for the contents `m0`
changes these positions to those of `m0`, and nothing else. With entries of type 'symm'. -/

namespace CE.St

variable {V : Type}

section
variable {F : Type}

/-- No index of elements. -/
def Whole (pi : List (PIdx F)) : Prop := pi = [] ∨ ∃ r, pi = .nesteddict :: r

/-- Every entry that a power index visits satisfies its condition for the rest of the power index; a list of names is last. -/
def lensIn (tbl : List (String × (List (PIdx F) → Prop))) : List (PIdx F) → Prop
  | [] => True
  | .str k :: rest => ∀ x ∈ tbl, x.1 = k → x.2 rest
  | .ellipsis :: rest => ∀ x ∈ tbl, x.2 rest
  | .dict :: rest => ∀ x ∈ tbl, x.2 rest
  | .set ks :: rest => ∀ x ∈ tbl, x.1 ∈ ks → x.2 rest
  | .nesteddict :: _ => ∀ x ∈ tbl, x.2 [.nesteddict]
  | .list _ :: rest => rest = []
  | _ :: _ => True

mutual
/-- The condition for an entry with exhausted `dims`: entries of type 'symm' are taken as a whole. -/
def Entry.leafLens : Entry → List (PIdx F) → Prop
  | .prim _ _ p, pi => p.symm = true → Whole pi
  | .nested _ _ es _, pi => lensIn (lensTable es) pi
/-- The conditions for all entries. -/
def lensTable : List Entry → List (String × (List (PIdx F) → Prop))
  | [] => []
  | e :: es => (e.name, StraightDims e.leafLens e.dims) :: lensTable es
end

theorem lensTable_eq (es : List Entry) :
    lensTable (F := F) es = es.map fun e => (e.name, StraightDims e.leafLens e.dims) := by
  induction es with
  | nil => rw [lensTable]; rfl
  | cons e es ih => rw [lensTable, ih]; rfl

end

/-! ## One step -/

/-- `m'` has the values of `m0` at the positions `S` and those of `m` elsewhere. -/
structure Over (S : ℕ → Prop) (m0 m m' : List V) : Prop where
  len : m'.length = m.length
  inside : ∀ k, S k → m'[k]? = m0[k]?
  outside : ∀ k, ¬ S k → m'[k]? = m[k]?

theorem Over.comp {S S' : ℕ → Prop} {m0 m m1 m2 : List V} (h : Over S m0 m m1) (h' : Over S' m0 m1 m2) :
    Over (fun k => S k ∨ S' k) m0 m m2 := by
  refine ⟨h'.len.trans h.len, fun k hk => ?_, fun k hk => ?_⟩
  · by_cases hs : S' k
    · exact h'.inside k hs
    · rw [h'.outside k hs]
      exact h.inside k (hk.resolve_right hs)
  · rw [not_or] at hk
    rw [h'.outside k hk.2, h.outside k hk.1]

theorem Over.congr {S S' : ℕ → Prop} {m0 m m' : List V} (h : Over S m0 m m') (hs : ∀ k, S k ↔ S' k) : Over S' m0 m m' :=
  ⟨h.len, fun k hk => h.inside k ((hs k).2 hk), fun k hk => h.outside k fun h' => hk ((hs k).1 h')⟩

/-- Writing the values of `m0` at the positions `S`. -/
def Writes {R : Type} (n : ℕ) (S : ℕ → Prop) (m0 : List V) (y : M (List V) R) : Prop :=
  ∀ m, m.length = n → ∃ r m', y m = (.ok r, m') ∧ Over S m0 m m'

/-- What is read depends on the positions `S`. -/
def Reads {α : Type} (n : ℕ) (S : ℕ → Prop) (m0 : List V) (g : List V → M Unit α) (a : α) : Prop :=
  ∀ m, m.length = n → (∀ k, S k → m[k]? = m0[k]?) → (g m ()).1 = .ok a

/-- Reading and writing at one set of positions. -/
def LStep {R : Type} (n : ℕ) (g : List V → M Unit (Tree (SMat V))) (y : Pay V → M (List V) R) : Prop :=
  ∃ S : ℕ → Prop, ∀ m0, m0.length = n → ∀ tv, (g m0 ()).1 = .ok tv → Reads n S m0 g tv ∧ Writes n S m0 (y tv.toPay)

theorem LStep.throw {R : Type} {n : ℕ} {g : List V → M Unit (Tree (SMat V))} {y : Pay V → M (List V) R}
    (h : ∀ m r, (g m ()).1 ≠ .ok r) : LStep n g y :=
  ⟨fun _ => False, fun m0 _ tv htv => absurd htv (h m0 tv)⟩

theorem forEach_unit_get {α β : Type} {f : α → M Unit β} : ∀ {l : List α} {rs : List β}, (M.forEach l f ()).1 = .ok rs →
    l.length = rs.length ∧ ∀ (j : ℕ) a, l[j]? = some a → ∃ r, rs[j]? = some r ∧ (f a ()).1 = .ok r := by
  intro l
  induction l with
  | nil => intro rs h; cases h; exact ⟨rfl, fun j a h => by simp at h⟩
  | cons b l ih =>
    intro rs h
    obtain ⟨r, rs', rfl, h1, h2⟩ := forEach_unit_cons h
    obtain ⟨h3, h4⟩ := ih h2
    refine ⟨by rw [List.length_cons, List.length_cons, h3], fun j a hj => ?_⟩
    cases j with
    | zero =>
      simp only [List.getElem?_cons_zero, Option.some.injEq] at hj
      subst hj
      exact ⟨r, rfl, h1⟩
    | succ j => exact h4 j a hj

theorem forEach_unit_congr {α β : Type} {f g : α → M Unit β} : ∀ {l : List α} {rs : List β}, (M.forEach l f ()).1 = .ok rs →
    (∀ a ∈ l, ∀ r, (f a ()).1 = .ok r → (g a ()).1 = .ok r) → (M.forEach l g ()).1 = .ok rs := by
  intro l
  induction l with
  | nil => intro rs h _; cases h; rfl
  | cons b l ih =>
    intro rs h hg
    obtain ⟨r, rs', rfl, h1, h2⟩ := forEach_unit_cons h
    have h3 := hg b List.mem_cons_self r h1
    have h4 := ih h2 fun a ha => hg a (List.mem_cons_of_mem _ ha)
    rw [M.forEach]
    simp only [M.bind]
    rcases hb : g b () with ⟨q, u⟩
    rw [hb] at h3
    simp only at h3
    subst h3
    simp only
    rcases hl : M.forEach l g u with ⟨q', u'⟩
    rw [hl] at h4
    simp only at h4
    subst h4
    rfl

theorem Writes.loop {α R : Type} {n : ℕ} {m0 : List V} {S : α → ℕ → Prop} {w : α → M (List V) R} : ∀ {l : List α},
    (∀ a ∈ l, Writes n (S a) m0 (w a)) → Writes n (fun k => ∃ a ∈ l, S a k) m0 (M.forEach l w) := by
  intro l
  induction l with
  | nil =>
    intro _ m hm
    refine ⟨[], m, rfl, ⟨rfl, fun k hk => ?_, fun k _ => rfl⟩⟩
    obtain ⟨a, ha, -⟩ := hk
    cases ha
  | cons a l ih =>
    intro h m hm
    obtain ⟨r, m1, h1, h2⟩ := h a List.mem_cons_self m hm
    obtain ⟨rs, m2, h3, h4⟩ := ih (fun b hb => h b (List.mem_cons_of_mem _ hb)) m1 (h2.len.trans hm)
    refine ⟨r :: rs, m2, ?_, (h2.comp h4).congr fun k => by simp⟩
    rw [M.forEach]
    simp only [M.bind, h1, h3]
    rfl

theorem Writes.bind_pure {R R' : Type} {n : ℕ} {S : ℕ → Prop} {m0 : List V} {y : M (List V) R} (h : Writes n S m0 y) (f : R → R') :
    Writes n S m0 (M.bind y fun r => M.pure (f r)) := by
  intro m hm
  obtain ⟨r, m', h1, h2⟩ := h m hm
  refine ⟨f r, m', ?_, h2⟩
  simp only [M.bind, h1]
  rfl

theorem bind_pure_of_ok {α β : Type} {x : M Unit α} {f : α → β} {a : α} (h : (x ()).1 = .ok a) :
    (M.bind x (fun r => M.pure (f r)) ()).1 = .ok (f a) := by
  simp only [M.bind]
  rcases hx : x () with ⟨r, u⟩
  rw [hx] at h
  simp only at h
  subst h
  rfl

/-- A loop over repetitions, or over entries in an order. -/
theorem LStep.list {γ R : Type} {n : ℕ} {l : List γ} {key : γ → ℤ} (ha : Aligned (l.map key))
    {f : List V → γ → Pay V → M Unit (Tree (SMat V))} {g : γ → Pay V → M (List V) (Tree R)}
    (H : ∀ a ∈ l, LStep n (fun m => f m a .none) (g a)) :
    LStep n (fun m => M.bind (M.forEach l fun a => M.bind (ex (payloadUnpack .none (.int (key a)))) (f m a)) fun r =>
        M.pure (Tree.list r))
      (fun q => M.bind (M.forEach l fun a => M.bind (ex (payloadUnpack q (.int (key a)))) (g a)) fun r => M.pure (Tree.list r)) := by
  choose! S hS using H
  refine ⟨fun k => ∃ a ∈ l, S a k, fun m0 hm0 tv htv => ?_⟩
  obtain ⟨ts, h1, rfl⟩ := bind_pure_ok htv
  have hel : ∀ a ∈ l, ∀ t, (f m0 a .none ()).1 = .ok t → Reads n (S a) m0 (fun m => f m a .none) t ∧ Writes n (S a) m0 (g a t.toPay) :=
    fun a ha t ht => hS a ha m0 hm0 t ht
  obtain ⟨hlen, hget⟩ := forEach_unit_get h1
  refine ⟨fun m hm hag => bind_pure_of_ok (forEach_unit_congr h1 fun a ha r hr => ?_), Writes.bind_pure (Writes.loop fun a hal => ?_) _⟩
  · exact (hel a ha r hr).1 m hm fun k hk => hag k ⟨a, ha, hk⟩
  · obtain ⟨j, hj, rfl⟩ := List.getElem_of_mem hal
    have hj' : l[j]? = some l[j] := List.getElem?_eq_getElem hj
    obtain ⟨t, ht, hft⟩ := hget j _ hj'
    have hu := unpack_aligned ha (by rw [List.length_map, hlen]) (j := j) (i := key l[j]) (by rw [List.getElem?_map, hj']; rfl) ht
    have := (hel _ hal t hft).2
    rw [hu]
    exact this

/-- A loop over names. -/
theorem LStep.dict {R : Type} {n : ℕ} {l : List String} {f : List V → String → M Unit (Tree (SMat V))}
    {g : String → Pay V → M (List V) (Tree R)} (H : ∀ a ∈ l, LStep n (fun m => f m a) (g a)) {y : Pay V → M (List V) (Tree R)}
    (hy : ∀ tvs : List (String × Tree (SMat V)), tvs.map (·.1) = l → y (Tree.dict tvs).toPay =
      M.bind (M.forEach (toItems tvs) fun kv => M.bind (g kv.1 kv.2) fun r => M.pure (kv.1, r)) fun r => M.pure (.dict r)) :
    LStep n (fun m => M.bind (M.forEach l fun a => M.bind (f m a) fun r => M.pure (a, r)) fun r => M.pure (Tree.dict r)) y := by
  choose! S hS using H
  refine ⟨fun k => ∃ a ∈ l, S a k, fun m0 hm0 tv htv => ?_⟩
  obtain ⟨ts, h1, rfl⟩ := bind_pure_ok htv
  obtain ⟨hlen, hget⟩ := forEach_unit_get h1
  have hget' : ∀ (j : ℕ) a, l[j]? = some a → ∃ t, ts[j]? = some (a, t) ∧ (f m0 a ()).1 = .ok t := by
    intro j a hj
    obtain ⟨r, hr, hfr⟩ := hget j a hj
    obtain ⟨t, ht, rfl⟩ := bind_pure_ok hfr
    exact ⟨t, hr, ht⟩
  have hnames : ts.map (·.1) = l := by
    apply List.ext_getElem?
    intro j
    rw [List.getElem?_map]
    cases hj : l[j]? with
    | none =>
      rw [List.getElem?_eq_none_iff] at hj
      rw [List.getElem?_eq_none (by omega)]
      rfl
    | some a =>
      obtain ⟨t, ht, -⟩ := hget' j a hj
      rw [ht]
      rfl
  refine ⟨fun m hm hag => bind_pure_of_ok (forEach_unit_congr h1 fun a ha r hr => ?_), ?_⟩
  · obtain ⟨t, ht, rfl⟩ := bind_pure_ok hr
    exact bind_pure_of_ok ((hS a ha m0 hm0 t ht).1 m hm fun k hk => hag k ⟨a, ha, hk⟩)
  · rw [hy ts hnames]
    refine Writes.bind_pure ?_ _
    have hit : ∀ kv ∈ toItems ts, kv.1 ∈ l ∧ ∃ t : Tree (SMat V), kv.2 = t.toPay ∧ (f m0 kv.1 ()).1 = .ok t := by
      intro kv hkv
      rw [toItems_eq, List.mem_map] at hkv
      obtain ⟨x, hx, rfl⟩ := hkv
      obtain ⟨j, hj, rfl⟩ := List.getElem_of_mem hx
      have hl : l[j]? = some l[j] := List.getElem?_eq_getElem (by omega)
      obtain ⟨t, ht, hft⟩ := hget' j _ hl
      rw [List.getElem?_eq_getElem hj, Option.some.injEq] at ht
      rw [ht]
      exact ⟨List.getElem_mem _, t, rfl, hft⟩
    have := Writes.loop (n := n) (m0 := m0) (S := fun kv : String × Pay V => S kv.1)
      (w := fun kv => M.bind (g kv.1 kv.2) fun r => M.pure (kv.1, r)) (l := toItems ts) fun kv hkv => by
        obtain ⟨h2, t, h3, h4⟩ := hit kv hkv
        rw [h3]
        exact Writes.bind_pure (hS kv.1 h2 m0 hm0 t h4).2 _
    intro m hm
    obtain ⟨r, m', e1, e2⟩ := this m hm
    refine ⟨r, m', e1, e2.congr fun k => ?_⟩
    constructor
    · rintro ⟨kv, hkv, hk⟩
      exact ⟨kv.1, (hit kv hkv).1, hk⟩
    · rintro ⟨a, ha, hk⟩
      rw [← hnames, List.mem_map] at ha
      obtain ⟨x, hx, rfl⟩ := ha
      exact ⟨(x.1, x.2.toPay), by rw [toItems_eq]; exact List.mem_map.2 ⟨x, hx, rfl⟩, hk⟩

/-! ## Traversals -/

/-- Traversals for reading, given the contents, and for writing, below the canonical indices in `C`. -/
def LTrav {F R : Type} (n : ℕ) (P : List (PIdx F) → Prop) (C : CIdx → Prop) (t : List V → Trav Unit V F (SMat V))
    (t' : Trav (List V) V F R) : Prop :=
  ∀ pi c, P pi → (∀ f, .fn f ∉ pi) → C c → LStep n (fun m => t m pi false c .none) fun q => t' pi false c q

theorem goEntry_lens {F R : Type} {n : ℕ} {d : List V → Disp Unit V F (SMat V)} {d' : Disp (List V) V F R} {P : List (PIdx F) → Prop}
    {C : CIdx → Prop} {leaf : List V → Trav Unit V F (SMat V)} {leaf' : Trav (List V) V F R} (hl : LTrav n P C leaf leaf') (ds : List ℕ) :
    LTrav n (StraightDims P ds) (fun c => ∀ ks : List ℤ, ks.length = ds.length → C (c ++ ks.map .int))
      (fun m => goEntry (d m) (leaf m) ds) (goEntry d' leaf' ds) := by
  induction ds with
  | nil =>
    intro pi c hP hf hC
    simp only [goEntry_nil]
    exact hl pi c hP hf (by simpa using hC [] rfl)
  | cons s ds ih =>
    intro pi c hP hf hC
    have hC' : ∀ (i : ℤ) (ks : List ℤ), ks.length = ds.length → C (c ++ [.int i] ++ ks.map .int) := by
      intro i ks hk
      simpa using hC (i :: ks) (by rw [List.length_cons, List.length_cons, hk])
    cases pi with
    | nil =>
      simp only [goEntry, sliceList_all]
      exact LStep.list (l := (List.range s).map fun i : ℕ => (i : ℤ)) (key := fun i => i)
        (by rw [List.map_id']; exact aligned_range s) fun i _ => ih _ _ (StraightDims.alls (L := P) hP ds) (by
          intro f hf
          obtain ⟨_, _, h⟩ := List.mem_map.1 hf
          cases h) (hC' _)
    | cons p rest =>
      have hf' : ∀ f, .fn f ∉ rest := fun f h => hf f (List.mem_cons_of_mem _ h)
      cases p with
      | slice a b st =>
        simp only [goEntry]
        cases hs : sliceList a b st s with
        | error e => exact LStep.throw (by rintro m r ⟨⟩)
        | ok is =>
          exact LStep.list (l := is) (key := fun i => i) (by rw [List.map_id']; exact hP.1 is hs) fun i _ => ih _ _ hP.2 hf' (hC' _)
      | int i =>
        simp only [goEntry_int]
        exact ih _ _ hP hf' (hC' _)
      | list l =>
        simp only [goEntry]
        by_cases h : ∃ is : List ℤ, l = is.map Key.int
        · obtain ⟨is, rfl⟩ := h
          simp only [M.forEach_map]
          exact LStep.list (l := is) (key := fun i => i) (by rw [List.map_id']; exact hP.1 is rfl) fun i _ => ih _ _ hP.2 hf' (hC' _)
        · refine LStep.throw fun m r hr => h ?_
          obtain ⟨ts, h1, -⟩ := bind_pure_ok hr
          have key : ∀ (f : Key → M Unit (Tree (SMat V))), (∀ s, ∃ e, (f (.str s) ()).1 = .error e) → ∀ (l : List Key) ts,
              (M.forEach l f ()).1 = .ok ts → ∃ is : List ℤ, l = is.map Key.int := by
            intro f hs l
            induction l with
            | nil => intro _ _; exact ⟨[], rfl⟩
            | cons a l ih =>
              intro ts h
              obtain ⟨r, ts', rfl, h1, h2⟩ := forEach_unit_cons h
              obtain ⟨is, rfl⟩ := ih _ h2
              cases a with
              | str s =>
                obtain ⟨e, he⟩ := hs s
                rw [he] at h1
                cases h1
              | int i => exact ⟨i :: is, rfl⟩
          exact key _ (fun s => ⟨_, rfl⟩) l ts h1
      | nesteddict =>
        simp only [goEntry]
        exact LStep.list (l := List.range s) (key := fun i : ℕ => (i : ℤ)) (aligned_range s) fun i _ => ih _ _ hP (by simp) (hC' _)
      | fn f => exact (hf f List.mem_cons_self).elim
      | str => exact LStep.throw (by rintro m r h; dsimp only at h; rw [goEntry] at h <;> first | cases h | (intros; contradiction))
      | ellipsis => exact LStep.throw (by rintro m r h; dsimp only at h; rw [goEntry] at h <;> first | cases h | (intros; contradiction))
      | dict => exact LStep.throw (by rintro m r h; dsimp only at h; rw [goEntry] at h <;> first | cases h | (intros; contradiction))
      | set => exact LStep.throw (by rintro m r h; dsimp only at h; rw [goEntry] at h <;> first | cases h | (intros; contradiction))
      | indexf => exact LStep.throw (by rintro m r h; dsimp only at h; rw [goEntry] at h <;> first | cases h | (intros; contradiction))
      | index => exact LStep.throw (by rintro m r h; dsimp only at h; rw [goEntry] at h <;> first | cases h | (intros; contradiction))
      | mat => exact LStep.throw (by rintro m r h; dsimp only at h; rw [goEntry] at h <;> first | cases h | (intros; contradiction))

theorem goStruct_lens {F R : Type} {n : ℕ} {d : List V → Disp Unit V F (SMat V)} {d' : Disp (List V) V F R} {es : List Entry}
    {C : CIdx → Prop} (hn : (es.map Entry.name).Nodup) (keys : List String)
    (hes : ∀ e ∈ es, LTrav n (StraightDims e.leafLens e.dims) (fun c => ∃ a, c = a ++ [.str e.name] ∧ C a)
      (fun m => goEntry (d m) (Entry.leafTrav (d m) e) e.dims) (goEntry d' (Entry.leafTrav d' e) e.dims))
    (hcall : ∀ c, LStep n (fun m => M.bind ((d m).call false .none c none none) fun r => M.pure (.leaf r))
      fun q => M.bind (d'.call false q c none none) fun r => M.pure (Tree.leaf r)) :
    LTrav n (lensIn (lensTable es)) C (fun m => goStruct (d m) keys (travTable (d m) es)) (goStruct d' keys (travTable d' es)) := by
  have hent : ∀ k pi c, (∀ e ∈ es, e.name = k → StraightDims e.leafLens e.dims pi) → (∀ f, .fn f ∉ pi) → C c →
      LStep n (fun m => goStruct (d m) keys (travTable (d m) es) (.str k :: pi) false c .none)
        fun q => goStruct d' keys (travTable d' es) (.str k :: pi) false c q := by
    intro k pi c hP hf hC
    simp only [goStruct_str]
    by_cases h : ∃ e ∈ es, e.name = k
    · obtain ⟨e, he, rfl⟩ := h
      simp only [entryTrav_of_mem _ hn he]
      exact hes e he pi _ (hP e he rfl) hf ⟨c, rfl, hC⟩
    · simp only [entryTrav_none _ (fun e he hk => h ⟨e, he, hk⟩)]
      exact LStep.throw (by rintro m r ⟨⟩)
  intro pi c hP hf hC
  have tbl : ∀ e ∈ es, (e.name, StraightDims (F := F) e.leafLens e.dims) ∈ lensTable es := by
    intro e he
    rw [lensTable_eq]
    exact List.mem_map_of_mem he
  cases pi with
  | nil =>
    simp only [goStruct]
    exact hcall c
  | cons p rest =>
    have hf' : ∀ f, .fn f ∉ rest := fun f h => hf f (List.mem_cons_of_mem _ h)
    cases p with
    | str k => exact hent k rest c (fun e he hk => hP _ (tbl e he) hk) hf' hC
    | ellipsis =>
      simp only [goStruct_ellipsis]
      exact LStep.list (l := keys.zipIdx) (key := fun ki => (ki.2 : ℤ)) (aligned_zipIdx _) fun ki _ =>
        hent ki.1 rest c (fun e he _ => hP _ (tbl e he)) hf' hC
    | dict =>
      have := LStep.dict (l := es.map Entry.name) (y := fun q => goStruct d' keys (travTable d' es) (.dict :: rest) false c q)
        (fun k _ => hent k rest c (fun e he _ => hP _ (tbl e he)) hf' hC) (fun tvs _ => by rw [Tree.toPay, goStruct_dict_items])
      simp only [M.forEach_map] at this
      simp only [goStruct_dict (d _) _ hn _ _ _ .none (by simp)]
      exact this
    | nesteddict =>
      have := LStep.dict (l := es.map Entry.name) (y := fun q => goStruct d' keys (travTable d' es) (.nesteddict :: rest) false c q)
        (fun k _ => hent k [.nesteddict] c (fun e he _ => hP _ (tbl e he)) (by simp) hC)
        (fun tvs _ => by rw [Tree.toPay, goStruct_nested_items])
      simp only [M.forEach_map] at this
      simp only [goStruct_nested (d _) _ hn _ _ _ .none (by simp)]
      exact this
    | set ks =>
      have := LStep.dict (l := ks) (y := fun q => goStruct d' keys (travTable d' es) (.set ks :: rest) false c q)
        (fun k hk => hent k rest c (fun e he h => hP _ (tbl e he) (by rw [h]; exact hk)) hf' hC) (fun tvs hks => by
          rw [Tree.toPay, goStruct_set_items]
          have : (toItems tvs).filter (fun kv => kv.1 ∈ ks) = toItems tvs := by
            rw [List.filter_eq_self]
            intro kv hkv
            rw [toItems_eq, List.mem_map] at hkv
            obtain ⟨x, hx, rfl⟩ := hkv
            simpa [← hks] using ⟨x.2, hx⟩
          rw [this])
      simp only [goStruct_set (d _) _ _ _ _ _ _ .none (by simp)]
      exact this
    | list l =>
      obtain rfl : rest = [] := hP
      simp only [goStruct]
      exact LStep.list (l := l.zipIdx) (key := fun ki => (ki.2 : ℤ)) (aligned_zipIdx _) fun ki _ => hcall _
    | fn f => exact (hf f List.mem_cons_self).elim
    | int => exact LStep.throw (by rintro m r h; dsimp only at h; rw [goStruct] at h <;> first | cases h | (intros; contradiction))
    | slice => exact LStep.throw (by rintro m r h; dsimp only at h; rw [goStruct] at h <;> first | cases h | (intros; contradiction))
    | indexf => exact LStep.throw (by rintro m r h; dsimp only at h; rw [goStruct] at h <;> first | cases h | (intros; contradiction))
    | index => exact LStep.throw (by rintro m r h; dsimp only at h; rw [goStruct] at h <;> first | cases h | (intros; contradiction))
    | mat => exact LStep.throw (by rintro m r h; dsimp only at h; rw [goStruct] at h <;> first | cases h | (intros; contradiction))

/-! ## Elements -/

section
variable [Zero V]

/-- Assigning a matrix that has the values of `m0` at the positions. -/
theorem assign_over {i : IMat} (hi : i.WF) {m0 m : List V} (hlen : m.length = m0.length) (hlt : ∀ k ∈ i.data, k < m0.length) {v : SMat V}
    (hr : i.sp.rows = v.sp.rows) (hc : i.sp.cols = v.sp.cols) (hv : i.sp.nz.map v.at' = i.data.map fun k => m0.getD k 0) :
    ∃ m', assign m i v = .ok m' ∧ Over (· ∈ i.data) m0 m m' := by
  refine ⟨writeAll m (i.data.zip (i.data.map fun k => m0.getD k 0)), ?_, writeAll_length _ _, fun k hk => ?_, fun k hk => ?_⟩
  · unfold assign
    have h2 : ¬ i.data.any (fun k => k ≥ m.length) = true := by
      rw [List.any_eq_true]
      rintro ⟨k, hk, hk'⟩
      have := hlt k hk
      simp only [decide_eq_true_eq] at hk'
      omega
    rw [if_neg h2, if_pos ⟨hr, hc⟩, hv]
  · have hmem : (k, m0.getD k 0) ∈ i.data.zip (i.data.map fun k => m0.getD k 0) := by
      obtain ⟨j, hj, rfl⟩ := List.getElem_of_mem hk
      exact List.mem_iff_getElem.2 ⟨j, by simpa using hj, by simp⟩
    have := lastWrite_agree (n := m.length) (ws := i.data.zip (i.data.map fun k => m0.getD k 0)) (w := (k, m0.getD k 0))
      (fun w hw w' hw' e => by
        have key : ∀ w ∈ i.data.zip (i.data.map fun k => m0.getD k 0), w.2 = m0.getD w.1 0 := by
          intro w hw
          obtain ⟨j, hj, rfl⟩ := List.getElem_of_mem hw
          simp
        rw [key w hw, key w' hw', e]) hmem (by have := hlt k hk; simp only; omega)
    simp only at this
    rw [writeAll_lastWrite, this, List.getD_eq_getElem?_getD, List.getElem?_eq_getElem (hlt k hk)]
    rfl
  · refine writeAll_notin _ _ ?_
    rw [List.map_fst_zip (by simp)]
    exact hk

variable [Add V] [Sub V]

theorem pattern_eq {p : Prim} {osp : Sparsity} (hS : IsSymm p osp) (hmir : ∀ i j, (i, j) ∈ osp.nz ↔ (j, i) ∈ osp.nz) :
    IsSymm.pattern osp = osp := by
  refine Sparsity.Canon.ext (Sparsity.ofPred_canon _ _ _) hS.canon rfl hS.square ?_
  rintro ⟨i, j⟩
  simp only [IsSymm.pattern, Sparsity.mem_ofPred, decide_eq_true_eq]
  constructor
  · rintro ⟨_, h | h⟩
    · exact h.1
    · exact (hmir i j).2 h.1
  · intro h
    have := hS.canon.mem h
    refine ⟨⟨this.1, by rw [hS.square]; exact this.2⟩, ?_⟩
    rcases Nat.le_total i j with h' | h'
    · exact .inl ⟨h, h'⟩
    · exact .inr ⟨(hmir i j).1 h, h'⟩

/-- Entries of type 'symm' that can be written as they are read. -/
def Mirrored (p : Prim) : Prop := p.symm = true → ∃ osp, IsSymm p osp ∧ ∀ i j, (i, j) ∈ osp.nz ↔ (j, i) ∈ osp.nz

theorem Whole.extra {x : List (PIdx (PyFn V))} (h : Whole x) (i : IMat) (e : Option Prim) (flip : Bool) :
    performExtraIndex applyIdx i e flip x = .ok i := by
  rcases h with rfl | ⟨r, rfl⟩ <;> rw [performExtraIndex]

/-- Reading and writing an element. -/
theorem call_lens (hv : ∀ x : V, x + x - x = x) {map : List (CIdx × IMat)} {n : ℕ}
    (hmap : ∀ c m, dictGet map c = some m → m.WF ∧ m.data.Nodup ∧ ∀ k ∈ m.data, k < n) (c : CIdx)
    (x : Option (List (PIdx (PyFn V)))) (hx : ∀ f, .fn f ∉ x.getD []) (e : Option Prim)
    (he : ∀ p, e = some p → p.symm = true → Whole (x.getD []) ∧ Mirrored p ∧ ∀ i, dictGet map c = some i → i.sp = p.sp) :
    LStep n (fun m => M.bind ((getDisp map [] m).call false .none c x e) fun r => M.pure (.leaf r))
      fun q => M.bind ((setDispOn assign map).call false q c x e) fun r => M.pure (Tree.leaf r) := by
  have hcall : ∀ m, (getDisp map [] m).call false .none c x e = ex (getCall map [] m c x e) := fun _ => rfl
  simp only [hcall]
  cases hidx : dictGet map c with
  | none =>
    refine LStep.throw fun m r hr => ?_
    obtain ⟨a, ha, -⟩ := bind_pure_ok hr
    have ha : getCall map [] m c x e = .ok a := ha
    unfold getCall at ha
    rw [hidx] at ha
    cases ha
  | some idx =>
    have hget : ∀ m, getCall map [] m c x e = (performExtraIndex applyIdx idx e false (x.getD [])).bind fun i =>
        (gather m i).bind fun r => if (match e with
        | none => false
        | some p => p.symm) then triu2symm r else .ok r := by
      intro m
      unfold getCall
      rw [hidx]
      rfl
    obtain ⟨hW, hnd, hlt⟩ := hmap c idx hidx
    cases hi : performExtraIndex applyIdx idx e false (x.getD []) with
    | error er =>
      refine LStep.throw fun m r hr => ?_
      obtain ⟨a, ha, -⟩ := bind_pure_ok hr
      have ha : getCall map [] m c x e = .ok a := ha
      rw [hget, hi] at ha
      cases ha
    | ok i =>
      have hiW : i.WF := performExtraIndex_WF hW _ _ _ hx hi
      have hilt : ∀ k ∈ i.data, k < n := performExtraIndex_mem (fun p hp f hpf => (hx f (hpf ▸ hp)).elim) hlt hi
      refine ⟨(· ∈ i.data), fun m0 hm0 tv htv => ?_⟩
      obtain ⟨v, hv1, rfl⟩ := bind_pure_ok htv
      have hv1 : getCall map [] m0 c x e = .ok v := hv1
      refine ⟨fun m hm hag => bind_pure_of_ok ?_, Writes.bind_pure (fun m hm => ?_) _⟩
      · show getCall map [] m c x e = .ok v
        rw [← hv1, hget, hget, hi]
        simp only [Except.bind]
        rw [gather_congr hag]
      · have hlt0 : ∀ k ∈ i.data, k < m0.length := by rw [hm0]; exact hilt
        have hst : (⟨i.sp, i.data.map fun k => m0.getD k 0⟩ : SMat V).WF := ⟨hiW.1, by simpa using hiW.2⟩
        rw [hget, hi] at hv1
        simp only [Except.bind, gather_ok hlt0] at hv1
        suffices hset : ∃ m', setCallOn assign map (.mat v) c x e m = (.ok (), m') ∧ Over (· ∈ i.data) m0 m m' by
          obtain ⟨m', h1, h2⟩ := hset
          refine ⟨none, m', ?_, h2⟩
          simp only [setDispOn, Bool.false_eq_true, if_false, M.bind, Tree.toPay, h1]
          rfl
        by_cases hsy : (match e with
          | none => false
          | some p => p.symm) = true
        · rw [if_pos hsy] at hv1
          cases e with
          | none => cases hsy
          | some p =>
            simp only at hsy
            obtain ⟨hwh, hmr, hsp⟩ := he p rfl hsy
            have hsp := hsp idx hidx
            obtain ⟨osp, hS, hmir⟩ := hmr hsy
            rw [hwh.extra] at hi
            cases hi
            rw [triu2symm_eq (r := ⟨idx.sp, idx.data.map fun k => m0.getD k 0⟩) hS hsp, pattern_eq hS hmir] at hv1
            have hv1 := Except.ok.inj hv1
            have hvsp : v.sp = osp := by rw [← hv1]; rfl
            have hvW : v.WF := by rw [← hv1]; exact SMat.fill_WF hS.canon _
            have hval : idx.sp.nz.map v.at' = idx.data.map fun k => m0.getD k 0 := by
              refine Eq.trans ?_ (SMat.map_at' hst)
              apply List.map_congr_left
              intro q hq
              rw [hsp] at hq
              have hm := hS.mem_sp.1 hq
              rw [← hv1, SMat.fill_at' hS.canon, if_pos hm.1]
              split
              · rw [hv]
              · rw [if_pos (by omega)]
            have hr : idx.sp.rows = v.sp.rows := by rw [hsp, hS.rows, hvsp]
            have hcl : idx.sp.cols = v.sp.cols := by rw [hsp, hS.cols, hvsp, hS.square]
            have hsq : v.sp.rows = v.sp.cols := by rw [hvsp]; exact hS.square
            obtain ⟨sp, sy, og, ss⟩ := p
            obtain rfl : sy = true := hS.symm
            obtain rfl : og = some osp := hS.orig
            by_cases hsc : v.isScalar = true
            · obtain ⟨m1, g1, g2⟩ := assign_over hiW (by rw [hm, hm0] : m.length = m0.length) hlt0 hr hcl hval
              obtain ⟨m2, k1, k2⟩ := assign_over hiW (by rw [g2.len, hm, hm0] : m1.length = m0.length) hlt0 hr hcl hval
              refine ⟨m2, ?_, (g2.comp k2).congr fun k => or_self_iff⟩
              unfold setCallOn
              simp only [Pay.toMat, hidx, hwh.extra, hsc, if_true, g1, k1]
            · obtain ⟨m1, g1, g2, -, g4⟩ := assign_spec (master := m) hiW.2 hnd (by rw [hm]; exact hilt)
                (written_of_fits hiW (SMat.fill_WF hiW.1 v.T.at') (.same rfl rfl))
              have hval' : idx.sp.nz.map (v.project idx.sp).at' = idx.data.map fun k => m0.getD k 0 := by
                rw [← hval]
                apply List.map_congr_left
                intro q hq
                rw [SMat.project, SMat.fill_at' hiW.1, if_pos hq]
              obtain ⟨m2, k1, k2⟩ := assign_over (v := v.project idx.sp) hiW (by rw [g2, hm, hm0] : m1.length = m0.length) hlt0 rfl rfl hval'
              refine ⟨m2, ?_, k2.len.trans g2, k2.inside, fun k hk => (k2.outside k hk).trans (g4 k hk)⟩
              unfold setCallOn
              simp only [Pay.toMat, hidx, hwh.extra, hsc, Bool.false_eq_true, if_false]
              rw [if_neg (by rw [hvsp]; simp), if_neg (by rw [hr, hcl, hsq]; simp), SMat.project, g1]
              simp only
              rw [if_neg (by rw [hr, hcl]; simp), k1]
        · rw [if_neg hsy] at hv1
          have hv1 := Except.ok.inj hv1
          obtain ⟨m', h1, h2⟩ := assign_over (v := v) hiW (by rw [hm, hm0] : m.length = m0.length) hlt0 (by rw [← hv1]) (by rw [← hv1])
            (by rw [← hv1]; exact SMat.map_at' hst)
          refine ⟨m', ?_, h2⟩
          unfold setCallOn
          simp only [Pay.toMat, hidx, hi]
          cases e with
          | none => simp only [h1]
          | some p =>
            obtain ⟨sp, sy, orig, ss⟩ := p
            simp only at hsy
            have hsy : sy = false := by simpa using hsy
            subst hsy
            simp only [h1]

/-! ## Structs -/

omit [Zero V] [Add V] [Sub V] in
mutual
/-- The index matrices of an entry have its pattern. -/
def Entry.okAt (map : List (CIdx × IMat)) : Entry → CIdx → Prop
  | .prim _ _ p, c => ∀ i, dictGet map c = some i → i.sp = p.sp
  | .nested _ _ es _, c => okIn map es c
/-- The index matrices of all entries have their patterns. -/
def okIn (map : List (CIdx × IMat)) : List Entry → CIdx → Prop
  | [], _ => True
  | e :: es, c => (∀ ks : List ℤ, ks.length = e.dims.length → e.okAt map (c ++ [.str e.name] ++ ks.map .int)) ∧ okIn map es c
end

theorem okIn.mem {map : List (CIdx × IMat)} {c : CIdx} : ∀ {es : List Entry}, okIn map es c → ∀ e ∈ es, ∀ ks : List ℤ,
    ks.length = e.dims.length → e.okAt map (c ++ [.str e.name] ++ ks.map .int)
  | [], _ => by rintro e ⟨⟩
  | e :: es, h => by
    rw [okIn] at h
    intro e' he'
    rcases List.mem_cons.1 he' with rfl | he'
    · exact h.1
    · exact okIn.mem h.2 e' he'

mutual
theorem leafTrav_lens (hv : ∀ x : V, x + x - x = x) {map : List (CIdx × IMat)} {n : ℕ}
    (hmap : ∀ c m, dictGet map c = some m → m.WF ∧ m.data.Nodup ∧ ∀ k ∈ m.data, k < n) : ∀ e : Entry, e.Prims Mirrored →
    (∀ n ds es o, e = .nested n ds es o → WFs es o) →
    LTrav n e.leafLens (e.okAt map) (fun m => Entry.leafTrav (getDisp (V := V) map [] m) e) (Entry.leafTrav (setDispOn assign map) e)
  | .prim nm ds p, hs, _ => by
    intro pi c hP hf hC
    simp only [Entry.leafTrav]
    have hpi : (if pi.isEmpty then none else some pi).getD [] = pi := by cases pi <;> rfl
    refine call_lens hv hmap c _ (by rw [hpi]; exact hf) _ ?_
    rintro _ ⟨⟩ hsy
    rw [hpi]
    rw [Entry.leafLens] at hP
    rw [Entry.okAt] at hC
    exact ⟨hP hsy, hs, hC⟩
  | .nested nm ds es o, hs, hn => by
    intro pi c hP hf hC
    cases pi with
    | nil =>
      simp only [Entry.leafTrav]
      exact call_lens hv hmap c none (by simp) none (by rintro _ ⟨⟩)
    | cons p rest =>
      rw [Entry.leafLens] at hP
      rw [Entry.okAt] at hC
      have hw := hn nm ds es o rfl
      simp only [Entry.leafTrav]
      exact goStruct_lens (d := fun m => getDisp map [] m) (C := okIn map es) hw.nodup _
        (travTable_lens hv hmap es hs (fun n ds es' o' he => hw.sub n ds es' o' he) (okIn map es) fun c hc => hc.mem)
        (fun c => call_lens hv hmap c none (by simp) none (by rintro _ ⟨⟩)) _ c hP hf hC
theorem travTable_lens (hv : ∀ x : V, x + x - x = x) {map : List (CIdx × IMat)} {n : ℕ}
    (hmap : ∀ c m, dictGet map c = some m → m.WF ∧ m.data.Nodup ∧ ∀ k ∈ m.data, k < n) : ∀ es : List Entry, Prims Mirrored es →
    (∀ n ds es' o, Entry.nested n ds es' o ∈ es → WFs es' o) → ∀ C : CIdx → Prop, (∀ c, C c → ∀ e ∈ es, ∀ ks : List ℤ,
      ks.length = e.dims.length → e.okAt map (c ++ [.str e.name] ++ ks.map .int)) → ∀ e ∈ es,
    LTrav n (StraightDims e.leafLens e.dims) (fun c => ∃ a, c = a ++ [.str e.name] ∧ C a)
      (fun m => goEntry (getDisp (V := V) map [] m) (Entry.leafTrav (getDisp map [] m) e) e.dims)
      (goEntry (setDispOn assign map) (Entry.leafTrav (setDispOn assign map) e) e.dims)
  | [], _, _, _, _ => by rintro e ⟨⟩
  | e :: es, hs, hn, C, hC => by
    intro e' he'
    rcases List.mem_cons.1 he' with h | h
    · rw [h]
      intro pi c hP hf hc
      obtain ⟨a, rfl, ha⟩ := hc
      exact goEntry_lens (d := fun m => getDisp map [] m)
        (leafTrav_lens hv hmap e hs.1 fun n ds es' o he => hn n ds es' o (by rw [he]; exact List.mem_cons_self)) e.dims pi _ hP hf
        (fun ks hk => hC a ha e List.mem_cons_self ks hk)
    · exact travTable_lens hv hmap es hs.2 (fun n ds es' o he => hn n ds es' o (List.mem_cons_of_mem _ he)) C
        (fun c hc e he => hC c hc e (List.mem_cons_of_mem _ he)) e' h
end

end

end CE.St
