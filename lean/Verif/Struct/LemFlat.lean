import Verif.Struct.PropsRepeat

/-! # The traversals of `s.f` and `s.i` side by side -/

namespace CE.St

mutual
/-- Nested lists of dense index matrices, and the numbers in them, in order. -/
inductive Flat : Tree IMat → List ℤ → Prop
  | leaf {m : IMat} : m.sp.nz.length = m.sp.rows * m.sp.cols → Flat (.leaf m) (m.data.map fun k : ℕ => (k : ℤ))
  | list {ts l} : FlatList ts l → Flat (.list ts) l
/-- The same for the elements of a list. -/
inductive FlatList : List (Tree IMat) → List ℤ → Prop
  | nil : FlatList [] []
  | cons {t ts a b} : Flat t a → FlatList ts b → FlatList (t :: ts) (a ++ b)
end

variable {F : Type}

theorem selIdx_lift (n : ℕ) (a : PIdx Empty) : selIdx (F := F) n a.lift = selIdx n a := by
  cases a <;> first | rfl | (rename_i f; exact f.elim)

theorem getLin_lift (i : IMat) (a : PIdx Empty) : getLin (F := F) i a.lift = getLin i a := by
  cases a <;> first | rfl | (rename_i f; exact f.elim)

theorem getRC_lift (i : IMat) (a b : PIdx Empty) : getRC (F := F) i a.lift b.lift = getRC i a b := by
  rw [getRC, getRC, selIdx_lift, selIdx_lift]

theorem delegation_lift (x : PIdx Empty) (entry : Option Prim) (k : ℕ) :
    delegation (F := F) x.lift entry k = (delegation x entry k).map .lift := by
  have key : ∀ (g : ShapeFns → Except PyErr (PIdx F)) (g' : ShapeFns → Except PyErr (PIdx Empty)), (∀ c, g c = (g' c).map .lift) →
      (match entry with
        | none => .error .generic
        | some p => match p.ss with
          | none => .error .generic
          | some l => match l[k]? with
            | none => .error .index
            | some none => .error .generic
            | some (some c) => g c) =
      (match entry with
        | none => .error .generic
        | some p => match p.ss with
          | none => .error .generic
          | some l => match l[k]? with
            | none => .error .index
            | some none => .error .generic
            | some (some c) => g' c : Except PyErr (PIdx Empty)).map .lift := by
    intro g g' h
    cases entry with
    | none => rfl
    | some p =>
      simp only
      cases p.ss with
      | none => rfl
      | some l =>
        simp only
        cases l[k]? with
        | none => rfl
        | some f => cases f with
          | none => rfl
          | some f => exact h f
  have flat : ∀ (arg : List (PIdx Empty)) (c : ShapeFns), ((c.f arg).map fun is => PIdx.list (F := F) (is.map .int)) =
      ((c.f arg).map fun is => PIdx.list (F := Empty) (is.map .int)).map .lift := by
    intro arg c
    cases c.f arg <;> rfl
  cases x with
  | str s => exact key _ _ (flat _)
  | indexf arg => exact key _ _ (flat _)
  | index arg =>
    refine key _ _ fun c => ?_
    cases c.i (arg.map .ofKey) with
    | error e => rfl
    | ok t => cases t <;> rfl
  | list l =>
    simp only [PIdx.lift, delegation]
    split
    · exact key _ _ (flat _)
    · rfl
  | fn f => exact f.elim
  | _ => rfl

theorem performExtraIndex_lift (onIdx : F → Tree IMat → Except PyErr IMat) (i : IMat) (entry : Option Prim) (flip : Bool)
    (x : List (PIdx Empty)) : performExtraIndex onIdx i entry flip (x.map .lift) =
      performExtraIndex (fun f : Empty => f.elim) i entry flip x := by
  have h1 : ∀ a : PIdx Empty, ((delegation a.lift entry 0).bind fun a => getLin (F := F) i a) =
      (delegation a entry 0).bind fun a => getLin i a := by
    intro a
    rw [delegation_lift]
    cases delegation a entry 0 with
    | error e => rfl
    | ok b => exact getLin_lift i b
  have h2 : ∀ a b : PIdx Empty, ((delegation (F := F) a.lift entry 0).bind fun a => (delegation b.lift entry 1).bind fun b =>
      if flip then getRC i b a else getRC i a b) =
      (delegation a entry 0).bind fun a => (delegation b entry 1).bind fun b =>
      if flip then getRC i b a else getRC i a b := by
    intro a b
    rw [delegation_lift, delegation_lift]
    cases delegation a entry 0 with
    | error e => rfl
    | ok a' =>
      cases delegation b entry 1 with
      | error e => rfl
      | ok b' =>
        simp only [Except.map, Except.bind]
        rw [getRC_lift, getRC_lift]
  match x with
  | [] => rfl
  | .fn f :: _ => exact f.elim
  | .nesteddict :: rest => rfl
  | [a] =>
    cases a with
    | fn f => exact f.elim
    | nesteddict => rfl
    | _ => exact h1 _
  | [a, b] =>
    cases a with
    | fn f => exact f.elim
    | nesteddict => rfl
    | _ => exact h2 _ _
  | a :: b :: c :: rest =>
    cases a with
    | fn f => exact f.elim
    | _ => rfl

/-! ## Results -/

/-- The results of two traversals, for `s.i` and for `s.f`, agree. -/
def FRel (x : M Unit (Tree IMat)) (y : M Unit (Tree (List ℤ))) : Prop :=
  ∀ l, (∃ t, (y ()).1 = .ok t ∧ t.vec = .ok l) ↔ ∃ t, (x ()).1 = .ok t ∧ Flat t l

theorem FRel.throw (e e' : PyErr) : FRel (M.throw e) (M.throw e') := by
  intro l
  constructor <;> rintro ⟨t, h, _⟩ <;> cases h

theorem FRel.exBind {α : Type} (x : Except PyErr α) {f : α → M Unit (Tree IMat)} {g : α → M Unit (Tree (List ℤ))}
    (h : ∀ a, FRel (f a) (g a)) : FRel (M.bind (ex x) f) (M.bind (ex x) g) := by
  cases x with
  | error e => exact FRel.throw e e
  | ok a => exact h a

theorem bind_ok {α β : Type} {x : M Unit α} {f : α → M Unit β} {b : β} :
    (M.bind x f ()).1 = .ok b ↔ ∃ a, (x ()).1 = .ok a ∧ (f a ()).1 = .ok b := by
  rw [M.bind]
  rcases x () with ⟨r, u⟩
  cases r with
  | error e => simp
  | ok a => simp

theorem FRel.dict {α : Type} {x : M Unit α} {y : M Unit α'} {f : α → List (String × Tree IMat)}
    {g : α' → List (String × Tree (List ℤ))} :
    FRel (M.bind x fun r => M.pure (.dict (f r))) (M.bind y fun r => M.pure (.dict (g r))) := by
  intro l
  constructor
  · rintro ⟨t, h, h'⟩
    obtain ⟨a, _, h1⟩ := bind_ok.1 h
    cases h1
    rw [Tree.vec] at h'
    cases h'
  · rintro ⟨t, h, h'⟩
    obtain ⟨a, _, h1⟩ := bind_ok.1 h
    cases h1
    cases h'

theorem forEach_ok {α β : Type} {a : α} {l : List α} {f : α → M Unit β} {r : List β} :
    (M.forEach (a :: l) f ()).1 = .ok r ↔ ∃ b bs, (f a ()).1 = .ok b ∧ (M.forEach l f ()).1 = .ok bs ∧ r = b :: bs := by
  rw [M.forEach, bind_ok]
  constructor
  · rintro ⟨b, h, h'⟩
    obtain ⟨bs, h1, h2⟩ := bind_ok.1 h'
    cases h2
    exact ⟨b, bs, h, h1, rfl⟩
  · rintro ⟨b, bs, h, h1, rfl⟩
    exact ⟨b, h, bind_ok.2 ⟨bs, h1, rfl⟩⟩

theorem vec_cons {t : Tree (List ℤ)} {ts : List (Tree (List ℤ))} {l : List ℤ} :
    Tree.vec.goList (t :: ts) = .ok l ↔ ∃ a b, t.vec = .ok a ∧ Tree.vec.goList ts = .ok b ∧ l = a ++ b := by
  rw [Tree.vec.goList]
  cases t.vec with
  | error e => simp [Except.bind]
  | ok a =>
    cases Tree.vec.goList ts with
    | error e => simp [Except.bind, Except.map]
    | ok b =>
      simp only [Except.bind, Except.map, Except.ok.injEq, exists_and_left, exists_eq_left', eq_comm]

theorem FRel.list {α : Type} (is : List α) {f : α → M Unit (Tree IMat)} {g : α → M Unit (Tree (List ℤ))}
    (h : ∀ a ∈ is, FRel (f a) (g a)) :
    FRel (M.bind (M.forEach is f) fun r => M.pure (.list r)) (M.bind (M.forEach is g) fun r => M.pure (.list r)) := by
  have key : ∀ l, (∃ ts, (M.forEach is g ()).1 = .ok ts ∧ Tree.vec.goList ts = .ok l) ↔
      ∃ ts, (M.forEach is f ()).1 = .ok ts ∧ FlatList ts l := by
    induction is with
    | nil =>
      intro l
      constructor
      · rintro ⟨ts, h1, h2⟩
        cases h1
        cases h2
        exact ⟨[], rfl, .nil⟩
      · rintro ⟨ts, h1, h2⟩
        cases h1
        cases h2
        exact ⟨[], rfl, rfl⟩
    | cons i is ih =>
      intro l
      constructor
      · rintro ⟨ts, h1, h2⟩
        obtain ⟨b, bs, hb, hbs, rfl⟩ := forEach_ok.1 h1
        obtain ⟨u, v, hu, hv, rfl⟩ := vec_cons.1 h2
        obtain ⟨t, ht, hft⟩ := (h i List.mem_cons_self u).1 ⟨b, hb, hu⟩
        obtain ⟨ts, hts, hfts⟩ := (ih (fun a ha => h a (List.mem_cons_of_mem _ ha)) v).1 ⟨bs, hbs, hv⟩
        exact ⟨t :: ts, forEach_ok.2 ⟨t, ts, ht, hts, rfl⟩, .cons hft hfts⟩
      · rintro ⟨ts, h1, h2⟩
        obtain ⟨b, bs, hb, hbs, rfl⟩ := forEach_ok.1 h1
        cases h2 with
        | @cons _ _ u v hu hv =>
          obtain ⟨t, ht, hft⟩ := (h i List.mem_cons_self u).2 ⟨b, hb, hu⟩
          obtain ⟨ts, hts, hfts⟩ := (ih (fun a ha => h a (List.mem_cons_of_mem _ ha)) v).2 ⟨bs, hbs, hv⟩
          exact ⟨t :: ts, forEach_ok.2 ⟨t, ts, ht, hts, rfl⟩, vec_cons.2 ⟨u, v, hft, hfts, rfl⟩⟩
  intro l
  constructor
  · rintro ⟨t, h1, h2⟩
    obtain ⟨ts, hts, h3⟩ := bind_ok.1 h1
    cases h3
    rw [Tree.vec] at h2
    obtain ⟨ts', h4, h5⟩ := (key l).1 ⟨ts, hts, h2⟩
    exact ⟨_, bind_ok.2 ⟨ts', h4, rfl⟩, .list h5⟩
  · rintro ⟨t, h1, h2⟩
    obtain ⟨ts, hts, h3⟩ := bind_ok.1 h1
    cases h3
    cases h2 with
    | list h2 =>
      obtain ⟨ts', h4, h5⟩ := (key l).2 ⟨ts, hts, h2⟩
      exact ⟨_, bind_ok.2 ⟨ts', h4, rfl⟩, by rw [Tree.vec]; exact h5⟩

/-! ## Traversals -/

variable {V : Type}

theorem unpack_none {W : Type} {β : Type} (i : ℤ) (f : Pay W → M Unit β) :
    M.bind (ex (payloadUnpack (.none : Pay W) (.int i))) f = f .none := rfl

/-- The call at an element. -/
theorem call_rel (map : List (CIdx × IMat)) (inner : Bool) (c : CIdx) (x : Option (List (PIdx Empty))) (e : Option Prim) :
    FRel (M.bind ((imDisp (V := V) map).call inner .none c (x.map fun x => x.map .lift) e) fun r => M.pure (.leaf r))
      (M.bind ((flatDisp (V := Empty) map).call inner .none c x e) fun r => M.pure (.leaf r)) := by
  have hx : (x.map fun x => x.map .lift).getD [] = (x.getD []).map (PIdx.lift (F := PyFn V)) := by cases x <;> rfl
  simp only [imDisp, flatDisp, imCall, flatCall, hx]
  cases dictGet map c with
  | none => exact FRel.throw _ _
  | some m =>
    simp only
    rw [performExtraIndex_lift]
    cases performExtraIndex (fun f : Empty => f.elim) m e false (x.getD []) with
    | error e => exact FRel.throw _ _
    | ok r =>
      simp only [Except.bind]
      intro l
      by_cases hd : r.sp.isDense = true
      · rw [if_pos hd]
        constructor
        · rintro ⟨t, h1, h2⟩
          cases h1
          rw [Tree.vec] at h2
          cases h2
          exact ⟨_, rfl, .leaf (by simpa [Sparsity.isDense] using hd)⟩
        · rintro ⟨t, h1, h2⟩
          cases h1
          cases h2
          exact ⟨_, rfl, by rw [Tree.vec]⟩
      · rw [if_neg hd]
        constructor
        · rintro ⟨t, h1, h2⟩
          cases h1
        · rintro ⟨t, h1, h2⟩
          cases h1
          cases h2 with
          | leaf h => exact absurd (by simpa [Sparsity.isDense] using h) hd

/-- Traversals of `s.i` and `s.f`. -/
def FTrav (t : Trav Unit V (PyFn V) IMat) (t' : Trav Unit Empty Empty (List ℤ)) : Prop :=
  ∀ pi inner c, FRel (t (pi.map .lift) inner c .none) (t' pi inner c .none)

theorem goEntry_flat (map : List (CIdx × IMat)) {leaf : Trav Unit V (PyFn V) IMat} {leaf' : Trav Unit Empty Empty (List ℤ)}
    (hl : FTrav leaf leaf') (ds : List ℕ) :
    FTrav (goEntry (imDisp map) leaf ds) (goEntry (flatDisp map) leaf' ds) := by
  induction ds with
  | nil =>
    intro pi inner c
    rw [goEntry_nil, goEntry_nil]
    exact hl pi inner c
  | cons s ds ih =>
    have halls : (ds.map fun _ => (PIdx.all : PIdx (PyFn V))) = (ds.map fun _ => (PIdx.all : PIdx Empty)).map .lift := by
      rw [List.map_map]; rfl
    intro pi inner c
    cases pi with
    | nil =>
      rw [List.map_nil, goEntry, goEntry]
      refine FRel.exBind _ fun is => FRel.list is fun i _ => ?_
      rw [unpack_none, unpack_none, halls]
      exact ih _ _ _
    | cons p rest =>
      rw [List.map_cons]
      cases p with
      | slice a b st =>
        rw [PIdx.lift, goEntry, goEntry]
        refine FRel.exBind _ fun is => FRel.list is fun i _ => ?_
        rw [unpack_none, unpack_none]
        exact ih _ _ _
      | int i =>
        rw [PIdx.lift, goEntry_int, goEntry_int]
        exact ih _ _ _
      | list l =>
        rw [PIdx.lift, goEntry, goEntry]
        refine FRel.list l fun i _ => ?_
        cases i with
        | str => exact FRel.throw _ _
        | int i =>
          rw [unpack_none, unpack_none]
          exact ih _ _ _
      | nesteddict =>
        rw [PIdx.lift, goEntry, goEntry]
        refine FRel.list _ fun i _ => ?_
        rw [unpack_none, unpack_none]
        exact ih [.nesteddict] _ _
      | fn f => exact f.elim
      | str => rw [PIdx.lift, goEntry, goEntry] <;> first | exact FRel.throw _ _ | (intros; contradiction)
      | ellipsis => rw [PIdx.lift, goEntry, goEntry] <;> first | exact FRel.throw _ _ | (intros; contradiction)
      | dict => rw [PIdx.lift, goEntry, goEntry] <;> first | exact FRel.throw _ _ | (intros; contradiction)
      | set => rw [PIdx.lift, goEntry, goEntry] <;> first | exact FRel.throw _ _ | (intros; contradiction)
      | indexf => rw [PIdx.lift, goEntry, goEntry] <;> first | exact FRel.throw _ _ | (intros; contradiction)
      | index => rw [PIdx.lift, goEntry, goEntry] <;> first | exact FRel.throw _ _ | (intros; contradiction)
      | mat => rw [PIdx.lift, goEntry, goEntry] <;> first | exact FRel.throw _ _ | (intros; contradiction)

/-- The traversals of the entries, by name. -/
abbrev FTable : List (String × Trav Unit V (PyFn V) IMat) → List (String × Trav Unit Empty Empty (List ℤ)) → Prop :=
  List.Forall₂ fun x y => x.1 = y.1 ∧ FTrav x.2 y.2

theorem FTable.find {l : List (String × Trav Unit V (PyFn V) IMat)} {l' : List (String × Trav Unit Empty Empty (List ℤ))}
    (h : FTable l l') (k : String) :
    (l.reverse.find? (·.1 = k) = none ∧ l'.reverse.find? (·.1 = k) = none) ∨
      ∃ t t', l.reverse.find? (·.1 = k) = some t ∧ l'.reverse.find? (·.1 = k) = some t' ∧ FTrav t.2 t'.2 := by
  have hr : FTable l.reverse l'.reverse := List.rel_reverse h
  revert hr
  generalize l.reverse = r, l'.reverse = r'
  intro hr
  clear h
  induction hr with
  | nil => exact .inl ⟨rfl, rfl⟩
  | @cons x y l l' hxy _ ih =>
    by_cases hk : x.1 = k
    · refine .inr ⟨x, y, ?_, ?_, hxy.2⟩
      · rw [List.find?_cons_of_pos (by simpa using hk)]
      · rw [List.find?_cons_of_pos (by simpa [← hxy.1] using hk)]
    · rw [List.find?_cons_of_neg (by simpa using hk), List.find?_cons_of_neg (by simpa [← hxy.1] using hk)]
      exact ih

theorem goStruct_flat (map : List (CIdx × IMat)) (keys : List String) {l : List (String × Trav Unit V (PyFn V) IMat)}
    {l' : List (String × Trav Unit Empty Empty (List ℤ))} (ht : FTable l l') :
    FTrav (goStruct (imDisp map) keys l) (goStruct (flatDisp map) keys l') := by
  intro pi
  induction pi with
  | nil =>
    intro inner c
    rw [List.map_nil, goStruct, goStruct]
    exact call_rel map inner c none none
  | cons p rest ih =>
    intro inner c
    rw [List.map_cons]
    cases p with
    | str k =>
      rw [PIdx.lift, goStruct, goStruct]
      rcases ht.find k with ⟨h1, h2⟩ | ⟨t, t', h1, h2, h3⟩
      · simp only [h1, h2]
        exact FRel.throw _ _
      · simp only [h1, h2]
        exact h3 rest inner _
    | ellipsis =>
      rw [PIdx.lift, goStruct, goStruct]
      refine FRel.list _ fun ki _ => ?_
      rw [unpack_none, unpack_none]
      rcases ht.find ki.1 with ⟨h1, h2⟩ | ⟨t, t', h1, h2, h3⟩
      · simp only [h1, h2]
        exact FRel.throw _ _
      · simp only [h1, h2]
        exact h3 rest inner _
    | dict =>
      rw [PIdx.lift, goStruct, goStruct] <;> first | exact FRel.dict | (intros; contradiction)
    | nesteddict =>
      rw [PIdx.lift, goStruct, goStruct] <;> first | exact FRel.dict | (intros; contradiction)
    | set ks =>
      rw [PIdx.lift, goStruct, goStruct] <;> first | exact FRel.dict | (intros; contradiction)
    | list ks =>
      rw [PIdx.lift, goStruct, goStruct]
      refine FRel.list _ fun si _ => ?_
      rw [unpack_none, unpack_none]
      exact ih inner _
    | fn f => exact f.elim
    | int => rw [PIdx.lift, goStruct, goStruct] <;> first | exact FRel.throw _ _ | (intros; contradiction)
    | slice => rw [PIdx.lift, goStruct, goStruct] <;> first | exact FRel.throw _ _ | (intros; contradiction)
    | indexf => rw [PIdx.lift, goStruct, goStruct] <;> first | exact FRel.throw _ _ | (intros; contradiction)
    | index => rw [PIdx.lift, goStruct, goStruct] <;> first | exact FRel.throw _ _ | (intros; contradiction)
    | mat => rw [PIdx.lift, goStruct, goStruct] <;> first | exact FRel.throw _ _ | (intros; contradiction)

mutual
theorem leafTrav_flat (map : List (CIdx × IMat)) :
    ∀ e : Entry, FTrav (V := V) (Entry.leafTrav (imDisp map) e) (Entry.leafTrav (flatDisp map) e)
  | .prim n ds p => by
    intro pi inner c
    rw [Entry.leafTrav, Entry.leafTrav]
    beta_reduce
    have : (if (pi.map (PIdx.lift (F := PyFn V))).isEmpty then none else some (pi.map PIdx.lift)) =
        (if pi.isEmpty then none else some pi).map fun x => x.map (PIdx.lift (F := PyFn V)) := by cases pi <;> rfl
    rw [this]
    exact call_rel map inner c _ _
  | .nested n ds es o => by
    intro pi inner c
    rw [Entry.leafTrav, Entry.leafTrav]
    cases pi with
    | nil => exact call_rel map inner c none none
    | cons p rest => exact goStruct_flat map _ (travTable_flat map es) (p :: rest) inner c
theorem travTable_flat (map : List (CIdx × IMat)) :
    ∀ es : List Entry, FTable (V := V) (travTable (imDisp map) es) (travTable (flatDisp map) es)
  | [] => by rw [travTable, travTable]; exact .nil
  | e :: es => by
    rw [travTable, travTable]
    exact .cons ⟨rfl, goEntry_flat map (leafTrav_flat map e) e.dims⟩ (travTable_flat map es)
end

end CE.St
