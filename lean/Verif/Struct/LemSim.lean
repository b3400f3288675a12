import Verif.Struct.PropsRepeat

/-! # Two traversals side by side

If two dispatchers do related things at the canonical indices `a ++ c` and `c`, so do the traversals of the same struct that
start at `a` and at the root. -/

namespace CE.St

section
variable {σ σ' α β α' β' : Type}

/-- Related outcomes: both succeed with related results, or both raise the same exception; the states are related. -/
def RRel (S : σ → σ' → Prop) (T : α → β → Prop) : Except PyErr α × σ → Except PyErr β × σ' → Prop
  | (.ok a, s), (.ok b, s') => T a b ∧ S s s'
  | (.error e, s), (.error e', s') => e = e' ∧ S s s'
  | _, _ => False

/-- Related computations. -/
def MRel (S : σ → σ' → Prop) (T : α → β → Prop) (x : M σ α) (y : M σ' β) : Prop :=
  ∀ s s', S s s' → RRel S T (x s) (y s')

variable {S : σ → σ' → Prop}

theorem MRel.pure {T : α → β → Prop} {a b} (h : T a b) : MRel S T (M.pure a) (M.pure b) := fun _ _ hs => ⟨h, hs⟩

theorem MRel.throw {T : α → β → Prop} (e : PyErr) : MRel S T (M.throw e) (M.throw e) := fun _ _ hs => ⟨rfl, hs⟩

theorem MRel.bind {T : α → β → Prop} {T' : α' → β' → Prop} {x : M σ α} {y : M σ' β} {f : α → M σ α'} {g : β → M σ' β'}
    (h : MRel S T x y) (hf : ∀ a b, T a b → MRel S T' (f a) (g b)) : MRel S T' (M.bind x f) (M.bind y g) := by
  intro s s' hs
  have h1 := h s s' hs
  simp only [M.bind]
  rcases hx : x s with ⟨r, u⟩
  rcases hy : y s' with ⟨r', u'⟩
  rw [hx, hy] at h1
  cases r with
  | ok a => cases r' with
    | ok b => exact hf a b h1.1 _ _ h1.2
    | error _ => exact h1.elim
  | error e => cases r' with
    | ok b => exact h1.elim
    | error _ => exact h1

theorem MRel.ex_same (x : Except PyErr α) : MRel S (· = ·) (ex x) (ex x) := by
  intro s s' hs
  show RRel S _ (x, s) (x, s')
  cases x with
  | ok a => exact ⟨rfl, hs⟩
  | error e => exact ⟨rfl, hs⟩

theorem MRel.forEach {γ : Type} {T : α → β → Prop} (l : List γ) {f : γ → M σ α} {g : γ → M σ' β}
    (h : ∀ c ∈ l, MRel S T (f c) (g c)) : MRel S (List.Forall₂ T) (M.forEach l f) (M.forEach l g) := by
  induction l with
  | nil => exact MRel.pure .nil
  | cons c l ih =>
    rw [M.forEach, M.forEach]
    exact (h c List.mem_cons_self).bind fun a b hab =>
      (ih fun d hd => h d (List.mem_cons_of_mem _ hd)).bind fun as bs hl => MRel.pure (.cons hab hl)

theorem MRel.forEach₂ {γ δ : Type} {T : α → β → Prop} {Q : γ → δ → Prop} {l : List γ} {l' : List δ} (hl : List.Forall₂ Q l l')
    {f : γ → M σ α} {g : δ → M σ' β} (h : ∀ c d, Q c d → MRel S T (f c) (g d)) :
    MRel S (List.Forall₂ T) (M.forEach l f) (M.forEach l' g) := by
  induction hl with
  | nil => exact MRel.pure .nil
  | cons hq _ ih =>
    rw [M.forEach, M.forEach]
    exact (h _ _ hq).bind fun a b hab => ih.bind fun as bs hl => MRel.pure (.cons hab hl)

end

section
variable {σ σ' V F R R' : Type}

/-- A power index whose callables satisfy `OK`. -/
def Fns (OK : F → Prop) (pi : List (PIdx F)) : Prop := ∀ p ∈ pi, ∀ f, p = .fn f → OK f

theorem Fns.tail {OK : F → Prop} {p : PIdx F} {pi} (h : Fns OK (p :: pi)) : Fns OK pi := fun q hq =>
  h q (List.mem_cons_of_mem _ hq)

theorem Fns.head {OK : F → Prop} {f : F} {pi} (h : Fns OK (.fn f :: pi)) : OK f := h _ List.mem_cons_self f rfl

theorem Fns.nested {OK : F → Prop} : Fns OK [.nesteddict] := by
  intro p hp f hf
  rw [List.mem_singleton.1 hp] at hf
  cases hf

theorem Fns.alls {α : Type} {OK : F → Prop} (l : List α) : Fns OK (l.map fun _ => .all) := by
  intro p hp f hf
  obtain ⟨_, _, rfl⟩ := List.mem_map.1 hp
  cases hf

/-- Dispatchers that do related things at `a ++ c` and `c`, for the primitive entries in `E` and the canonical indices in `C`. -/
structure DRel (S : σ → σ' → Prop) (T : Tree R → Tree R' → Prop) (a : CIdx) (OK : F → Prop) (d : Disp σ V F R)
    (d' : Disp σ' V F R') (E : Prim → Prop := fun _ => True) (C : CIdx → Prop := fun c => c ≠ []) : Prop where
  ext : ∀ c k, C c → C (c ++ [k]) := by intros; simp
  list : ∀ {l l'}, List.Forall₂ T l l' → T (.list l) (.list l')
  dict : ∀ {l l'}, List.Forall₂ (fun x y => x.1 = y.1 ∧ T x.2 y.2) l l' → T (.dict l) (.dict l')
  call : ∀ inner pay c x e, C c → Fns OK (x.getD []) → (∀ p, e = some p → E p) →
    MRel S (fun r r' => T (.leaf r) (.leaf r')) (d.call inner pay (a ++ c) x e) (d'.call inner pay c x e)
  outer : ∀ inner f pay c c' r r', OK f → T r r' → MRel S T (d.outer inner f pay c r) (d'.outer inner f pay c' r')

/-- Traversals that do related things below `a ++ c` and `c`. -/
def TravRel (S : σ → σ' → Prop) (T : Tree R → Tree R' → Prop) (a : CIdx) (OK : F → Prop) (t : Trav σ V F R)
    (t' : Trav σ' V F R') (C : CIdx → Prop := fun c => c ≠ []) : Prop :=
  ∀ pi inner c pay, C c → Fns OK pi → MRel S T (t pi inner (a ++ c) pay) (t' pi inner c pay)

variable {S : σ → σ' → Prop} {T : Tree R → Tree R' → Prop} {a : CIdx} {OK : F → Prop} {d : Disp σ V F R}
    {d' : Disp σ' V F R'} {E : Prim → Prop} {C : CIdx → Prop}

theorem goEntry_rel (h : DRel S T a OK d d' E C) {leaf : Trav σ V F R} {leaf' : Trav σ' V F R'}
    (hl : TravRel S T a OK leaf leaf' C) (ds : List ℕ) : TravRel S T a OK (goEntry d leaf ds) (goEntry d' leaf' ds) C := by
  induction ds with
  | nil =>
    intro pi inner c pay hc hf
    rw [goEntry_nil, goEntry_nil]
    exact hl pi inner c pay hc hf
  | cons s ds ih =>
    have step : ∀ (pi : List (PIdx F)) (inner : Bool) (c : CIdx) (pay : Pay V) (k : Key) (i : ℤ), C c → Fns OK pi →
        MRel S T
          (M.bind (ex (payloadUnpack pay k)) fun pay' => goEntry d leaf ds pi inner (a ++ c ++ [.int i]) pay')
          (M.bind (ex (payloadUnpack pay k)) fun pay' => goEntry d' leaf' ds pi inner (c ++ [.int i]) pay') := by
      intro pi inner c pay k i hc hf
      refine (MRel.ex_same _).bind ?_
      rintro p _ rfl
      rw [List.append_assoc]
      exact ih _ _ _ _ (h.ext _ _ hc) hf
    intro pi
    induction pi with
    | nil =>
      intro inner c pay hc _
      rw [goEntry, goEntry]
      refine (MRel.ex_same _).bind ?_
      rintro is _ rfl
      refine (MRel.forEach is fun i _ => step _ _ _ _ _ _ hc (Fns.alls ds)).bind fun l l' hll => MRel.pure (h.list hll)
    | cons p rest ihp =>
      intro inner c pay hc hf
      cases p with
      | slice x y z =>
        rw [goEntry, goEntry]
        refine (MRel.ex_same _).bind ?_
        rintro is _ rfl
        refine (MRel.forEach is fun i _ => step _ _ _ _ _ _ hc hf.tail).bind fun l l' hll => MRel.pure (h.list hll)
      | int i =>
        rw [goEntry_int, goEntry_int, List.append_assoc]
        exact ih _ _ _ _ (h.ext _ _ hc) hf.tail
      | list l =>
        rw [goEntry, goEntry]
        refine (MRel.forEach l fun i _ => ?_).bind fun l l' hll => MRel.pure (h.list hll)
        cases i with
        | str => exact (MRel.ex_same _).bind fun _ _ _ => MRel.throw _
        | int i => exact step _ _ _ _ _ _ hc hf.tail
      | nesteddict =>
        rw [goEntry, goEntry]
        exact (MRel.forEach _ fun i _ => step _ _ _ _ _ _ hc Fns.nested).bind fun l l' hll => MRel.pure (h.list hll)
      | fn f =>
        rw [goEntry, goEntry]
        exact (ihp true c pay hc hf.tail).bind fun r r' hr => h.outer _ _ _ _ _ _ _ hf.head hr
      | str => rw [goEntry, goEntry] <;> first | exact MRel.throw _ | (intros; contradiction)
      | ellipsis => rw [goEntry, goEntry] <;> first | exact MRel.throw _ | (intros; contradiction)
      | dict => rw [goEntry, goEntry] <;> first | exact MRel.throw _ | (intros; contradiction)
      | set => rw [goEntry, goEntry] <;> first | exact MRel.throw _ | (intros; contradiction)
      | indexf => rw [goEntry, goEntry] <;> first | exact MRel.throw _ | (intros; contradiction)
      | index => rw [goEntry, goEntry] <;> first | exact MRel.throw _ | (intros; contradiction)
      | mat => rw [goEntry, goEntry] <;> first | exact MRel.throw _ | (intros; contradiction)

/-- Is it a callable? -/
def PIdx.isFn : PIdx F → Bool
  | .fn _ => true
  | _ => false

/-- The traversals of the entries, by name. -/
abbrev TableRel (S : σ → σ' → Prop) (T : Tree R → Tree R' → Prop) (a : CIdx) (OK : F → Prop) (C : CIdx → Prop) :
    List (String × Trav σ V F R) → List (String × Trav σ' V F R') → Prop :=
  List.Forall₂ fun x y => x.1 = y.1 ∧ TravRel S T a OK x.2 y.2 C

theorem table_find {l : List (String × Trav σ V F R)} {l' : List (String × Trav σ' V F R')} (h : TableRel S T a OK C l l')
    (k : String) : TravRel S T a OK
      (fun pi inner c pay => match l.reverse.find? (·.1 = k) with
        | some t => t.2 pi inner c pay
        | none => M.throw .generic)
      (fun pi inner c pay => match l'.reverse.find? (·.1 = k) with
        | some t => t.2 pi inner c pay
        | none => M.throw .generic) C := by
  have key : ∀ {l : List (String × Trav σ V F R)} {l' : List (String × Trav σ' V F R')}, TableRel S T a OK C l l' →
      (l.find? (·.1 = k) = none ∧ l'.find? (·.1 = k) = none) ∨
      ∃ t t', l.find? (·.1 = k) = some t ∧ l'.find? (·.1 = k) = some t' ∧ TravRel S T a OK t.2 t'.2 C := by
    intro l l' h
    induction h with
    | nil => exact .inl ⟨rfl, rfl⟩
    | @cons x y l l' hxy _ ih =>
      by_cases hk : x.1 = k
      · refine .inr ⟨x, y, ?_, ?_, hxy.2⟩
        · rw [List.find?_cons_of_pos (by simpa using hk)]
        · rw [List.find?_cons_of_pos (by simpa [← hxy.1] using hk)]
      · rw [List.find?_cons_of_neg (by simpa using hk), List.find?_cons_of_neg (by simpa [← hxy.1] using hk)]
        exact ih
  have hr : TableRel S T a OK C l.reverse l'.reverse := List.rel_reverse h
  intro pi inner c pay hc hf
  rcases key hr with ⟨h1, h2⟩ | ⟨t, t', h1, h2, h3⟩
  · rw [h1, h2]; exact MRel.throw _
  · rw [h1, h2]; exact h3 pi inner c pay hc hf

/-- The elements that an item of a power index appends to a canonical index. -/
def PIdx.visits : PIdx F → Key → Prop
  | .str k, x => x = .str k
  | .set ks, x => ∃ k ∈ ks, x = .str k
  | .list l, x => x ∈ l
  | _, _ => True

/-- The first item after the callables leads from `c` to `C`. -/
def Starts (C : CIdx → Prop) (c : CIdx) : List (PIdx F) → Prop
  | [] => C c
  | .fn _ :: pi => Starts C c pi
  | p :: _ => ∀ k, p.visits k → C (c ++ [k])

theorem Starts.of_mem {C : CIdx → Prop} {c : CIdx} (hC : ∀ c k, C c → C (c ++ [k])) (h : C c) (pi : List (PIdx F)) : Starts C c pi := by
  induction pi with
  | nil => exact h
  | cons p pi ih => cases p <;> first | exact ih | exact fun k _ => hC c k h

theorem Starts.of_ne {c : CIdx} {pi : List (PIdx F)} (h : c ≠ [] ∨ ∃ p ∈ pi, p.isFn = false) : Starts (fun c => c ≠ []) c pi := by
  rcases h with h | h
  · exact .of_mem (C := fun c => c ≠ []) (by intros; simp) h pi
  · induction pi with
    | nil => simp at h
    | cons p pi ih =>
      cases p with
      | fn f =>
        obtain ⟨p, hp, h1⟩ := h
        rcases List.mem_cons.1 hp with rfl | hp
        · cases h1
        · exact ih ⟨p, hp, h1⟩
      | _ => exact fun k _ => by simp

theorem goStruct_relC (h : DRel S T a OK d d' E C) (keys : List String) {l : List (String × Trav σ V F R)}
    {l' : List (String × Trav σ' V F R')} (ht : TableRel S T a OK C l l') (pi : List (PIdx F)) :
    ∀ (inner : Bool) (c : CIdx) (pay : Pay V), Starts C c pi → Fns OK pi →
      MRel S T (goStruct d keys l pi inner (a ++ c) pay) (goStruct d' keys l' pi inner c pay) := by
  induction pi with
  | nil =>
    intro inner c pay hc _
    rw [goStruct, goStruct]
    exact (h.call inner pay c none none hc (by intro p hp; cases hp) (by intro p hp; cases hp)).bind fun r r' hr => MRel.pure hr
  | cons p rest ih =>
    intro inner c pay hc hf
    have hent : ∀ (k : String) pi inner pay, C (c ++ [.str k]) → Fns OK pi → MRel S T
        (match l.reverse.find? (·.1 = k) with
          | some t => t.2 pi inner (a ++ c ++ [.str k]) pay
          | none => M.throw .generic)
        (match l'.reverse.find? (·.1 = k) with
          | some t => t.2 pi inner (c ++ [.str k]) pay
          | none => M.throw .generic) := by
      intro k pi inner pay hk hf
      rw [List.append_assoc]
      exact table_find ht k pi inner _ pay hk hf
    have hitems : ∀ (items : List (String × Pay V)) (pi : List (PIdx F)) (hi : ∀ kv ∈ items, C (c ++ [.str kv.1])) (hf : Fns OK pi), MRel S T
        (M.bind (M.forEach items fun kv =>
          M.bind (match l.reverse.find? (·.1 = kv.1) with
            | some t => t.2 pi inner (a ++ c ++ [.str kv.1]) kv.2
            | none => M.throw .generic) fun r => M.pure (kv.1, r)) fun r => M.pure (.dict r))
        (M.bind (M.forEach items fun kv =>
          M.bind (match l'.reverse.find? (·.1 = kv.1) with
            | some t => t.2 pi inner (c ++ [.str kv.1]) kv.2
            | none => M.throw .generic) fun r => M.pure (kv.1, r)) fun r => M.pure (.dict r)) := by
      intro items pi hi hf
      refine (MRel.forEach items (T := fun x y => x.1 = y.1 ∧ T x.2 y.2) fun kv hkv => ?_).bind fun l l' hll =>
        MRel.pure (h.dict hll)
      exact (hent kv.1 pi inner kv.2 (hi kv hkv) hf).bind fun r r' hr => MRel.pure ⟨rfl, hr⟩
    have htab : ∀ (pi : List (PIdx F)) (hi : ∀ k : String, C (c ++ [.str k])) (hf : Fns OK pi), MRel S T
        (M.bind (M.forEach l fun kt => M.bind (kt.2 pi inner (a ++ c ++ [.str kt.1]) pay) fun r => M.pure (kt.1, r))
          fun r => M.pure (.dict r))
        (M.bind (M.forEach l' fun kt => M.bind (kt.2 pi inner (c ++ [.str kt.1]) pay) fun r => M.pure (kt.1, r))
          fun r => M.pure (.dict r)) := by
      intro pi hi hf
      refine (MRel.forEach₂ ht (T := fun x y => x.1 = y.1 ∧ T x.2 y.2) fun x y hxy => ?_).bind fun l l' hll =>
        MRel.pure (h.dict hll)
      rw [hxy.1, List.append_assoc]
      exact (hxy.2 pi inner _ pay (hi _) hf).bind fun r r' hr => MRel.pure ⟨rfl, hr⟩
    cases p with
    | str k =>
      rw [goStruct, goStruct]
      exact hent k rest inner pay (hc _ rfl) hf.tail
    | ellipsis =>
      rw [goStruct, goStruct]
      refine (MRel.forEach _ fun ki _ => ?_).bind fun l l' hll => MRel.pure (h.list hll)
      refine (MRel.ex_same _).bind ?_
      rintro p _ rfl
      exact hent ki.1 rest inner p (hc _ trivial) hf.tail
    | dict =>
      cases pay with
      | dict items => rw [goStruct, goStruct]; exact hitems items rest (fun _ _ => hc _ trivial) hf.tail
      | _ => rw [goStruct, goStruct] <;> first | exact htab rest (fun _ => hc _ trivial) hf.tail | (intros; contradiction)
    | nesteddict =>
      cases pay with
      | dict items => rw [goStruct, goStruct]; exact hitems items [.nesteddict] (fun _ _ => hc _ trivial) Fns.nested
      | _ => rw [goStruct, goStruct] <;> first | exact htab [.nesteddict] (fun _ => hc _ trivial) Fns.nested | (intros; contradiction)
    | set ks =>
      have hks : MRel S T
          (M.bind (M.forEach ks fun k =>
            M.bind (match l.reverse.find? (·.1 = k) with
              | some t => t.2 rest inner (a ++ c ++ [.str k]) pay
              | none => M.throw .generic) fun r => M.pure (k, r)) fun r => M.pure (.dict r))
          (M.bind (M.forEach ks fun k =>
            M.bind (match l'.reverse.find? (·.1 = k) with
              | some t => t.2 rest inner (c ++ [.str k]) pay
              | none => M.throw .generic) fun r => M.pure (k, r)) fun r => M.pure (.dict r)) := by
        refine (MRel.forEach ks (T := fun x y => x.1 = y.1 ∧ T x.2 y.2) fun k hk => ?_).bind fun l l' hll =>
          MRel.pure (h.dict hll)
        exact (hent k rest inner pay (hc _ ⟨k, hk, rfl⟩) hf.tail).bind fun r r' hr => MRel.pure ⟨rfl, hr⟩
      cases pay with
      | dict items => rw [goStruct, goStruct]; exact hitems _ rest (fun kv hkv => hc _ ⟨kv.1, by simpa using (List.mem_filter.1 hkv).2, rfl⟩) hf.tail
      | _ => rw [goStruct, goStruct] <;> first | exact hks | (intros; contradiction)
    | list ks =>
      rw [goStruct, goStruct]
      refine (MRel.forEach _ fun si hsi => ?_).bind fun l l' hll => MRel.pure (h.list hll)
      refine (MRel.ex_same _).bind ?_
      rintro p _ rfl
      rw [List.append_assoc]
      exact ih inner _ p (.of_mem h.ext (hc _ (List.fst_mem_of_mem_zipIdx hsi)) _) hf.tail
    | fn f =>
      rw [goStruct, goStruct]
      exact (ih true c pay hc hf.tail).bind fun r r' hr => h.outer _ _ _ _ _ _ _ hf.head hr
    | int => rw [goStruct, goStruct] <;> first | exact MRel.throw _ | (intros; contradiction)
    | slice => rw [goStruct, goStruct] <;> first | exact MRel.throw _ | (intros; contradiction)
    | indexf => rw [goStruct, goStruct] <;> first | exact MRel.throw _ | (intros; contradiction)
    | index => rw [goStruct, goStruct] <;> first | exact MRel.throw _ | (intros; contradiction)
    | mat => rw [goStruct, goStruct] <;> first | exact MRel.throw _ | (intros; contradiction)

theorem goStruct_rel (h : DRel S T a OK d d' E) (keys : List String) {l : List (String × Trav σ V F R)}
    {l' : List (String × Trav σ' V F R')} (ht : TableRel S T a OK (fun c => c ≠ []) l l') (pi : List (PIdx F)) (inner : Bool)
    (c : CIdx) (pay : Pay V) (hc : c ≠ [] ∨ ∃ p ∈ pi, p.isFn = false) (hf : Fns OK pi) :
    MRel S T (goStruct d keys l pi inner (a ++ c) pay) (goStruct d' keys l' pi inner c pay) :=
  goStruct_relC h keys ht pi inner c pay (.of_ne hc) hf

end

mutual
/-- All primitive entries, also those of nested structs, satisfy a predicate. -/
def Entry.Prims (E : Prim → Prop) : Entry → Prop
  | .prim _ _ p => E p
  | .nested _ _ es _ => Prims E es
/-- All primitive entries, also those of nested structs, satisfy a predicate. -/
def Prims (E : Prim → Prop) : List Entry → Prop
  | [] => True
  | e :: es => e.Prims E ∧ Prims E es
end

mutual
theorem Entry.Prims.true : ∀ e : Entry, e.Prims fun _ => True
  | .prim _ _ _ => trivial
  | .nested _ _ es _ => Prims.true es
theorem Prims.true : ∀ es : List Entry, Prims (fun _ => True) es
  | [] => trivial
  | e :: es => ⟨Entry.Prims.true e, Prims.true es⟩
end

section
variable {σ σ' V F R R' : Type} {S : σ → σ' → Prop} {T : Tree R → Tree R' → Prop} {a : CIdx} {OK : F → Prop}
    {d : Disp σ V F R} {d' : Disp σ' V F R'} {E : Prim → Prop} {C : CIdx → Prop}

mutual
theorem leafTrav_rel (h : DRel S T a OK d d' E C) : ∀ e : Entry, e.Prims E →
    TravRel S T a OK (Entry.leafTrav d e) (Entry.leafTrav d' e) C
  | .prim n ds p, he => by
    intro pi inner c pay hc hf
    rw [Entry.leafTrav, Entry.leafTrav]
    refine (h.call inner pay c _ _ hc ?_ ?_).bind fun r r' hr => MRel.pure hr
    swap
    · rintro q hq
      cases hq
      exact he
    split
    · intro p hp; cases hp
    · exact hf
  | .nested n ds es o, he => by
    intro pi inner c pay hc hf
    rw [Entry.leafTrav, Entry.leafTrav]
    cases pi with
    | nil => exact (h.call inner pay c none none hc (by intro p hp; cases hp) (by intro p hp; cases hp)).bind fun r r' hr => MRel.pure hr
    | cons p rest => exact goStruct_relC h _ (travTable_rel h es he) (p :: rest) inner c pay (.of_mem h.ext hc _) hf
theorem travTable_rel (h : DRel S T a OK d d' E C) : ∀ es : List Entry, Prims E es →
    TableRel S T a OK C (travTable d es) (travTable d' es)
  | [], _ => by rw [travTable, travTable]; exact .nil
  | e :: es, he => by
    rw [travTable, travTable]
    exact .cons ⟨rfl, goEntry_rel h (leafTrav_rel h e he.1) e.dims⟩ (travTable_rel h es he.2)
end

end

end CE.St
