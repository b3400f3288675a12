import Verif.Struct.LemSim

/-! # Traversals below a callable

Below a callable the setter's traversal is the traversal of `s.i[...]`: it computes the same index matrices and leaves `master`
alone.  Only payloads that are not unpacked (a matrix, a number, none) are considered. -/

namespace CE.St

section
variable {σ σ' V F R R' : Type}

/-- A payload that is handed on as it is. -/
def Plain (p : Pay V) : Prop := p = .none ∨ (∃ x, p = .num x) ∨ ∃ m, p = .mat m

theorem Plain.unpack {p : Pay V} (h : Plain p) (i : ℤ) : payloadUnpack p (.int i) = .ok p := by
  rcases h with rfl | ⟨x, rfl⟩ | ⟨m, rfl⟩ <;> rfl

theorem Plain.not_dict {p : Pay V} (h : Plain p) (items) : p ≠ .dict items := by
  rcases h with rfl | ⟨x, rfl⟩ | ⟨m, rfl⟩ <;> simp

/-- Dispatchers that do related things, the first one below a callable. -/
structure InnerRel (S : σ → σ' → Prop) (T : Tree R → Tree R' → Prop) (d : Disp σ V F R) (d' : Disp σ' V F R') : Prop where
  list : ∀ {l l'}, List.Forall₂ T l l' → T (.list l) (.list l')
  dict : ∀ {l l'}, List.Forall₂ (fun x y => x.1 = y.1 ∧ T x.2 y.2) l l' → T (.dict l) (.dict l')
  call : ∀ inner pay pay' c x e,
    MRel S (fun r r' => T (.leaf r) (.leaf r')) (d.call true pay c x e) (d'.call inner pay' c x e)
  outer : ∀ inner f pay pay' c r r', T r r' → MRel S T (d.outer true f pay c r) (d'.outer inner f pay' c r')

/-- Traversals that do related things, the first one below a callable. -/
def TravIn (S : σ → σ' → Prop) (T : Tree R → Tree R' → Prop) (t : Trav σ V F R) (t' : Trav σ' V F R') : Prop :=
  ∀ pi inner c pay pay', Plain pay → Plain pay' → MRel S T (t pi true c pay) (t' pi inner c pay')

variable {S : σ → σ' → Prop} {T : Tree R → Tree R' → Prop} {d : Disp σ V F R} {d' : Disp σ' V F R'}

theorem goEntry_in (h : InnerRel S T d d') {leaf : Trav σ V F R} {leaf' : Trav σ' V F R'}
    (hl : TravIn S T leaf leaf') (ds : List ℕ) : TravIn S T (goEntry d leaf ds) (goEntry d' leaf' ds) := by
  induction ds with
  | nil =>
    intro pi inner c pay pay' hp hp'
    rw [goEntry_nil, goEntry_nil]
    exact hl pi inner c pay pay' hp hp'
  | cons s ds ih =>
    have step : ∀ (pi : List (PIdx F)) (inner : Bool) (c : CIdx) (pay pay' : Pay V) (i k : ℤ), Plain pay → Plain pay' →
        MRel S T
          (M.bind (ex (payloadUnpack pay (.int k))) fun q => goEntry d leaf ds pi true (c ++ [.int i]) q)
          (M.bind (ex (payloadUnpack pay' (.int k))) fun q => goEntry d' leaf' ds pi inner (c ++ [.int i]) q) := by
      intro pi inner c pay pay' i k hp hp'
      rw [hp.unpack, hp'.unpack]
      exact ih _ _ _ _ _ hp hp'
    intro pi
    induction pi with
    | nil =>
      intro inner c pay pay' hp hp'
      rw [goEntry, goEntry]
      refine (MRel.ex_same _).bind ?_
      rintro is _ rfl
      exact (MRel.forEach is fun i _ => step _ _ _ _ _ _ _ hp hp').bind fun l l' hll => MRel.pure (h.list hll)
    | cons p rest ihp =>
      intro inner c pay pay' hp hp'
      cases p with
      | slice x y z =>
        rw [goEntry, goEntry]
        refine (MRel.ex_same _).bind ?_
        rintro is _ rfl
        exact (MRel.forEach is fun i _ => step _ _ _ _ _ _ _ hp hp').bind fun l l' hll => MRel.pure (h.list hll)
      | int i =>
        rw [goEntry_int, goEntry_int]
        exact ih _ _ _ _ _ hp hp'
      | list l =>
        rw [goEntry, goEntry]
        refine (MRel.forEach l fun i _ => ?_).bind fun l l' hll => MRel.pure (h.list hll)
        cases i with
        | str => exact MRel.throw _
        | int i => exact step _ _ _ _ _ _ _ hp hp'
      | nesteddict =>
        rw [goEntry, goEntry]
        exact (MRel.forEach _ fun i _ => step _ _ _ _ _ _ _ hp hp').bind fun l l' hll => MRel.pure (h.list hll)
      | fn f =>
        rw [goEntry, goEntry]
        exact (ihp true c pay pay' hp hp').bind fun r r' hr => h.outer _ _ _ _ _ _ _ hr
      | str => rw [goEntry, goEntry] <;> first | exact MRel.throw _ | (intros; contradiction)
      | ellipsis => rw [goEntry, goEntry] <;> first | exact MRel.throw _ | (intros; contradiction)
      | dict => rw [goEntry, goEntry] <;> first | exact MRel.throw _ | (intros; contradiction)
      | set => rw [goEntry, goEntry] <;> first | exact MRel.throw _ | (intros; contradiction)
      | indexf => rw [goEntry, goEntry] <;> first | exact MRel.throw _ | (intros; contradiction)
      | index => rw [goEntry, goEntry] <;> first | exact MRel.throw _ | (intros; contradiction)
      | mat => rw [goEntry, goEntry] <;> first | exact MRel.throw _ | (intros; contradiction)

/-- The traversals of the entries, by name. -/
abbrev TableIn (S : σ → σ' → Prop) (T : Tree R → Tree R' → Prop) :
    List (String × Trav σ V F R) → List (String × Trav σ' V F R') → Prop :=
  List.Forall₂ fun x y => x.1 = y.1 ∧ TravIn S T x.2 y.2

theorem table_find_in {l : List (String × Trav σ V F R)} {l' : List (String × Trav σ' V F R')} (h : TableIn S T l l')
    (k : String) : TravIn S T
      (fun pi inner c pay => match l.reverse.find? (·.1 = k) with
        | some t => t.2 pi inner c pay
        | none => M.throw .generic)
      (fun pi inner c pay => match l'.reverse.find? (·.1 = k) with
        | some t => t.2 pi inner c pay
        | none => M.throw .generic) := by
  have key : ∀ {l : List (String × Trav σ V F R)} {l' : List (String × Trav σ' V F R')}, TableIn S T l l' →
      (l.find? (·.1 = k) = none ∧ l'.find? (·.1 = k) = none) ∨
      ∃ t t', l.find? (·.1 = k) = some t ∧ l'.find? (·.1 = k) = some t' ∧ TravIn S T t.2 t'.2 := by
    intro l l' h
    induction h with
    | nil => exact .inl ⟨rfl, rfl⟩
    | @cons x y l l' hxy _ ih =>
      by_cases hk : x.1 = k
      · refine .inr ⟨x, y, ?_, ?_, hxy.2⟩
        · rw [List.find?_cons_of_pos (by simpa using hk)]
        · rw [List.find?_cons_of_pos (by simpa [← hxy.1] using hk)]
      · rw [List.find?_cons_of_neg (by simpa using hk), List.find?_cons_of_neg (by simpa [← hxy.1] using hk)]
        exact ih
  have hr : TableIn S T l.reverse l'.reverse := List.rel_reverse h
  intro pi inner c pay pay' hp hp'
  rcases key hr with ⟨h1, h2⟩ | ⟨t, t', h1, h2, h3⟩
  · rw [h1, h2]; exact MRel.throw _
  · rw [h1, h2]; exact h3 pi inner c pay pay' hp hp'

theorem goStruct_in (h : InnerRel S T d d') (keys : List String) {l : List (String × Trav σ V F R)}
    {l' : List (String × Trav σ' V F R')} (ht : TableIn S T l l') (pi : List (PIdx F)) :
    ∀ (inner : Bool) (c : CIdx) (pay pay' : Pay V), Plain pay → Plain pay' →
      MRel S T (goStruct d keys l pi true c pay) (goStruct d' keys l' pi inner c pay') := by
  induction pi with
  | nil =>
    intro inner c pay pay' _ _
    rw [goStruct, goStruct]
    exact (h.call inner pay pay' c none none).bind fun r r' hr => MRel.pure hr
  | cons p rest ih =>
    intro inner c pay pay' hp hp'
    have hent : ∀ (k : String) pi, MRel S T
        (match l.reverse.find? (·.1 = k) with
          | some t => t.2 pi true (c ++ [.str k]) pay
          | none => M.throw .generic)
        (match l'.reverse.find? (·.1 = k) with
          | some t => t.2 pi inner (c ++ [.str k]) pay'
          | none => M.throw .generic) := by
      intro k pi
      exact table_find_in ht k pi inner _ pay pay' hp hp'
    have htab : ∀ (pi : List (PIdx F)), MRel S T
        (M.bind (M.forEach l fun kt => M.bind (kt.2 pi true (c ++ [.str kt.1]) pay) fun r => M.pure (kt.1, r))
          fun r => M.pure (.dict r))
        (M.bind (M.forEach l' fun kt => M.bind (kt.2 pi inner (c ++ [.str kt.1]) pay') fun r => M.pure (kt.1, r))
          fun r => M.pure (.dict r)) := by
      intro pi
      refine (MRel.forEach₂ ht (T := fun x y => x.1 = y.1 ∧ T x.2 y.2) fun x y hxy => ?_).bind fun l l' hll =>
        MRel.pure (h.dict hll)
      rw [hxy.1]
      exact (hxy.2 pi inner _ pay pay' hp hp').bind fun r r' hr => MRel.pure ⟨rfl, hr⟩
    cases p with
    | str k =>
      rw [goStruct, goStruct]
      exact hent k rest
    | ellipsis =>
      rw [goStruct, goStruct]
      refine (MRel.forEach _ fun ki _ => ?_).bind fun l l' hll => MRel.pure (h.list hll)
      rw [hp.unpack, hp'.unpack]
      exact hent ki.1 rest
    | dict =>
      have e1 : goStruct d keys l (.dict :: rest) true c pay = M.bind (M.forEach l fun kt =>
          M.bind (kt.2 rest true (c ++ [.str kt.1]) pay) fun r => M.pure (kt.1, r)) fun r => M.pure (.dict r) := by
        rcases hp with rfl | ⟨x, rfl⟩ | ⟨m, rfl⟩ <;> rw [goStruct] <;> (intros; contradiction)
      have e2 : goStruct d' keys l' (.dict :: rest) inner c pay' = M.bind (M.forEach l' fun kt =>
          M.bind (kt.2 rest inner (c ++ [.str kt.1]) pay') fun r => M.pure (kt.1, r)) fun r => M.pure (.dict r) := by
        rcases hp' with rfl | ⟨x, rfl⟩ | ⟨m, rfl⟩ <;> rw [goStruct] <;> (intros; contradiction)
      rw [e1, e2]
      exact htab rest
    | nesteddict =>
      have e1 : goStruct d keys l (.nesteddict :: rest) true c pay = M.bind (M.forEach l fun kt =>
          M.bind (kt.2 [.nesteddict] true (c ++ [.str kt.1]) pay) fun r => M.pure (kt.1, r)) fun r => M.pure (.dict r) := by
        rcases hp with rfl | ⟨x, rfl⟩ | ⟨m, rfl⟩ <;> rw [goStruct] <;> (intros; contradiction)
      have e2 : goStruct d' keys l' (.nesteddict :: rest) inner c pay' = M.bind (M.forEach l' fun kt =>
          M.bind (kt.2 [.nesteddict] inner (c ++ [.str kt.1]) pay') fun r => M.pure (kt.1, r)) fun r => M.pure (.dict r) := by
        rcases hp' with rfl | ⟨x, rfl⟩ | ⟨m, rfl⟩ <;> rw [goStruct] <;> (intros; contradiction)
      rw [e1, e2]
      exact htab [.nesteddict]
    | set ks =>
      have hks : MRel S T
          (M.bind (M.forEach ks fun k =>
            M.bind (match l.reverse.find? (·.1 = k) with
              | some t => t.2 rest true (c ++ [.str k]) pay
              | none => M.throw .generic) fun r => M.pure (k, r)) fun r => M.pure (.dict r))
          (M.bind (M.forEach ks fun k =>
            M.bind (match l'.reverse.find? (·.1 = k) with
              | some t => t.2 rest inner (c ++ [.str k]) pay'
              | none => M.throw .generic) fun r => M.pure (k, r)) fun r => M.pure (.dict r)) := by
        refine (MRel.forEach ks (T := fun x y => x.1 = y.1 ∧ T x.2 y.2) fun k _ => ?_).bind fun l l' hll =>
          MRel.pure (h.dict hll)
        exact (hent k rest).bind fun r r' hr => MRel.pure ⟨rfl, hr⟩
      have e1 : goStruct d keys l (.set ks :: rest) true c pay = M.bind (M.forEach ks fun k =>
            M.bind (match l.reverse.find? (·.1 = k) with
              | some t => t.2 rest true (c ++ [.str k]) pay
              | none => M.throw .generic) fun r => M.pure (k, r)) fun r => M.pure (.dict r) := by
        rcases hp with rfl | ⟨x, rfl⟩ | ⟨m, rfl⟩ <;> rw [goStruct] <;> first | rfl | (intros; contradiction)
      have e2 : goStruct d' keys l' (.set ks :: rest) inner c pay' = M.bind (M.forEach ks fun k =>
            M.bind (match l'.reverse.find? (·.1 = k) with
              | some t => t.2 rest inner (c ++ [.str k]) pay'
              | none => M.throw .generic) fun r => M.pure (k, r)) fun r => M.pure (.dict r) := by
        rcases hp' with rfl | ⟨x, rfl⟩ | ⟨m, rfl⟩ <;> rw [goStruct] <;> first | rfl | (intros; contradiction)
      rw [e1, e2]
      exact hks
    | list ks =>
      rw [goStruct, goStruct]
      refine (MRel.forEach _ fun si _ => ?_).bind fun l l' hll => MRel.pure (h.list hll)
      rw [hp.unpack, hp'.unpack]
      exact ih inner _ pay pay' hp hp'
    | fn f =>
      rw [goStruct, goStruct]
      exact (ih true c pay pay' hp hp').bind fun r r' hr => h.outer _ _ _ _ _ _ _ hr
    | int => rw [goStruct, goStruct] <;> first | exact MRel.throw _ | (intros; contradiction)
    | slice => rw [goStruct, goStruct] <;> first | exact MRel.throw _ | (intros; contradiction)
    | indexf => rw [goStruct, goStruct] <;> first | exact MRel.throw _ | (intros; contradiction)
    | index => rw [goStruct, goStruct] <;> first | exact MRel.throw _ | (intros; contradiction)
    | mat => rw [goStruct, goStruct] <;> first | exact MRel.throw _ | (intros; contradiction)

mutual
theorem leafTrav_in (h : InnerRel S T d d') : ∀ e : Entry, TravIn S T (Entry.leafTrav d e) (Entry.leafTrav d' e)
  | .prim n ds p => by
    intro pi inner c pay pay' _ _
    rw [Entry.leafTrav, Entry.leafTrav]
    exact (h.call inner pay pay' c _ _).bind fun r r' hr => MRel.pure hr
  | .nested n ds es o => by
    intro pi inner c pay pay' hp hp'
    rw [Entry.leafTrav, Entry.leafTrav]
    cases pi with
    | nil => exact (h.call inner pay pay' c none none).bind fun r r' hr => MRel.pure hr
    | cons p rest => exact goStruct_in h _ (travTable_in h es) (p :: rest) inner c pay pay' hp hp'
theorem travTable_in (h : InnerRel S T d d') : ∀ es : List Entry, TableIn S T (travTable d es) (travTable d' es)
  | [] => by rw [travTable, travTable]; exact .nil
  | e :: es => by
    rw [travTable, travTable]
    exact .cons ⟨rfl, goEntry_in h (leafTrav_in h e) e.dims⟩ (travTable_in h es)
end

end

/-! ## The setter and `s.i` -/

section
variable {V : Type} [Zero V]

/-- The index matrix in a result of the setter below a callable. -/
def unwrapIdx : Option IMat → Except PyErr IMat
  | some i => .ok i
  | none => .error .type

/-- The result of the setter below a callable that corresponds to a result of `s.i`. -/
def IdxRel (r : Tree (Option IMat)) (t : Tree IMat) : Prop := r.mapM' unwrapIdx = .ok t

theorem idxRel_list {l : List (Tree (Option IMat))} {l' : List (Tree IMat)} (h : List.Forall₂ IdxRel l l') :
    IdxRel (.list l) (.list l') := by
  have : Tree.mapM'.goList unwrapIdx l = .ok l' := by
    induction h with
    | nil => rfl
    | cons hxy _ ih =>
      rw [Tree.mapM'.goList, hxy, ih]
      rfl
  rw [IdxRel, Tree.mapM', this]
  rfl

theorem idxRel_dict {l : List (String × Tree (Option IMat))} {l' : List (String × Tree IMat)}
    (h : List.Forall₂ (fun x y => x.1 = y.1 ∧ IdxRel x.2 y.2) l l') : IdxRel (.dict l) (.dict l') := by
  have : Tree.mapM'.goDict unwrapIdx l = .ok l' := by
    induction h with
    | nil => rfl
    | @cons x y _ _ hxy _ ih =>
      obtain ⟨k, t⟩ := x
      obtain ⟨k', t'⟩ := y
      obtain ⟨hk, ht⟩ := hxy
      simp only at hk ht
      rw [Tree.mapM'.goDict, ht, ih, hk]
      rfl
  rw [IdxRel, Tree.mapM', this]
  rfl

theorem setDisp_outer (map : List (CIdx × IMat)) (inner : Bool) (f : PyFn V) (pay : Pay V) (c : CIdx)
    {r : Tree (Option IMat)} {t : Tree IMat} (h : IdxRel r t) (m : List V) :
    (setDisp map).outer inner f pay c r m = match f.onIdx t with
      | .error e => (.error e, m)
      | .ok i =>
        if inner then (.ok (.leaf (some i)), m)
        else match pay.toMat with
          | .error e => (.error e, m)
          | .ok v => match assign m i v with
            | .error e => (.error e, m)
            | .ok m' => (.ok (.leaf none), m') := by
  have hd : (setDisp map).outer inner f pay c r m = match r.mapM' unwrapIdx with
      | .error e => (.error e, m)
      | .ok t => match f.onIdx t with
        | .error e => (.error e, m)
        | .ok i =>
          if inner then (.ok (.leaf (some i)), m)
          else match pay.toMat with
            | .error e => (.error e, m)
            | .ok v => match assign m i v with
              | .error e => (.error e, m)
              | .ok m' => (.ok (.leaf none), m') := rfl
  rw [hd, show r.mapM' unwrapIdx = .ok t from h]

/-- Below a callable the setter does what `s.i` does. -/
theorem setDisp_inner (map : List (CIdx × IMat)) (m : List V) :
    InnerRel (fun m' (_ : Unit) => m' = m) IdxRel (setDisp (V := V) map) (imDisp map) where
  list := idxRel_list
  dict := idxRel_dict
  call := by
    intro inner pay pay' c x e m' u hm
    simp only [setDisp, imDisp, if_true, ex, M.lift]
    cases imCall applyIdx map c x e with
    | error e => exact ⟨rfl, hm⟩
    | ok i => exact ⟨rfl, hm⟩
  outer := by
    intro inner f pay pay' c r t h m' u hm
    rw [setDisp_outer map true f pay c h]
    simp only [imDisp, ex, M.lift]
    cases f.onIdx t with
    | error e => exact ⟨rfl, hm⟩
    | ok i => exact ⟨rfl, hm⟩

end

end CE.St
