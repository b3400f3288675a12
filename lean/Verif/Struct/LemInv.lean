import Verif.Struct.LemSim

/-! # What a traversal preserves

If every call of the dispatcher preserves a property of the state (for payloads with a property that parts of payloads
inherit), so does every traversal. -/

namespace CE.St

section
variable {σ α β : Type} {P : σ → Prop}

/-- The computation preserves `P`. -/
def MInv (P : σ → Prop) (x : M σ α) : Prop := ∀ s, P s → P (x s).2

theorem MInv.pure (a : α) : MInv P (M.pure a) := fun _ h => h

theorem MInv.throw (e : PyErr) : MInv P (M.throw e : M σ α) := fun _ h => h

theorem MInv.ex (x : Except PyErr α) : MInv P (ex x) := fun _ h => h

theorem MInv.bind {x : M σ α} {f : α → M σ β} (h : MInv P x) (hf : ∀ a, MInv P (f a)) : MInv P (M.bind x f) := by
  intro s hs
  have h1 := h s hs
  simp only [M.bind]
  rcases hx : x s with ⟨r, u⟩
  rw [hx] at h1
  cases r with
  | ok a => exact hf a u h1
  | error e => exact h1

/-- A bind after a helper that does not change the state. -/
theorem MInv.exBind {x : Except PyErr α} {f : α → M σ β} (hf : ∀ a, x = .ok a → MInv P (f a)) :
    MInv P (M.bind (St.ex x) f) := by
  intro s hs
  cases x with
  | ok a => exact hf a rfl s hs
  | error e => exact hs

theorem MInv.forEach {γ : Type} (l : List γ) {f : γ → M σ α} (h : ∀ c ∈ l, MInv P (f c)) : MInv P (M.forEach l f) := by
  induction l with
  | nil => exact MInv.pure _
  | cons c l ih =>
    rw [M.forEach]
    exact (h c List.mem_cons_self).bind fun a =>
      (ih fun d hd => h d (List.mem_cons_of_mem _ hd)).bind fun as => MInv.pure _

end

section
variable {σ V F R : Type} {P : σ → Prop} {Q : Pay V → Prop}

/-- Parts of payloads inherit the property. -/
structure PayClosed (Q : Pay V → Prop) : Prop where
  unpack : ∀ pay i q, Q pay → payloadUnpack pay i = .ok q → Q q
  dict : ∀ l, Q (.dict l) → ∀ kv ∈ l, Q kv.2

/-- The dispatcher preserves `P`. -/
structure DInv (P : σ → Prop) (Q : Pay V → Prop) (d : Disp σ V F R) : Prop where
  call : ∀ inner pay c x e, Q pay → MInv P (d.call inner pay c x e)
  outer : ∀ inner f pay c r, Q pay → MInv P (d.outer inner f pay c r)

/-- The traversal preserves `P`. -/
def TravInv (P : σ → Prop) (Q : Pay V → Prop) (t : Trav σ V F R) : Prop := ∀ pi inner c pay, Q pay → MInv P (t pi inner c pay)

variable {d : Disp σ V F R}

theorem goEntry_inv (hQ : PayClosed Q) (h : DInv P Q d) {leaf : Trav σ V F R} (hl : TravInv P Q leaf) (ds : List ℕ) :
    TravInv P Q (goEntry d leaf ds) := by
  induction ds with
  | nil =>
    intro pi inner c pay hq
    rw [goEntry_nil]
    exact hl pi inner c pay hq
  | cons s ds ih =>
    have step : ∀ (pi : List (PIdx F)) (inner : Bool) (c : CIdx) (pay : Pay V) (k : Key), Q pay →
        MInv P (M.bind (ex (payloadUnpack pay k)) fun pay' => goEntry d leaf ds pi inner c pay') := by
      intro pi inner c pay k hq
      exact MInv.exBind fun q hu => ih _ _ _ _ (hQ.unpack _ _ _ hq hu)
    intro pi
    induction pi with
    | nil =>
      intro inner c pay hq
      rw [goEntry]
      exact MInv.exBind fun is _ => (MInv.forEach is fun i _ => step _ _ _ _ _ hq).bind fun l => MInv.pure _
    | cons p rest ihp =>
      intro inner c pay hq
      cases p with
      | slice x y z =>
        rw [goEntry]
        exact MInv.exBind fun is _ => (MInv.forEach is fun i _ => step _ _ _ _ _ hq).bind fun l => MInv.pure _
      | int i =>
        rw [goEntry_int]
        exact ih _ _ _ _ hq
      | list l =>
        rw [goEntry]
        refine (MInv.forEach l fun i _ => ?_).bind fun l => MInv.pure _
        cases i with
        | str => exact MInv.exBind fun _ _ => MInv.throw _
        | int i => exact step _ _ _ _ _ hq
      | nesteddict =>
        rw [goEntry]
        exact (MInv.forEach _ fun i _ => step _ _ _ _ _ hq).bind fun l => MInv.pure _
      | fn f =>
        rw [goEntry]
        exact (ihp true c pay hq).bind fun r => h.outer _ _ _ _ _ hq
      | str => rw [goEntry] <;> first | exact MInv.throw _ | (intros; contradiction)
      | ellipsis => rw [goEntry] <;> first | exact MInv.throw _ | (intros; contradiction)
      | dict => rw [goEntry] <;> first | exact MInv.throw _ | (intros; contradiction)
      | set => rw [goEntry] <;> first | exact MInv.throw _ | (intros; contradiction)
      | indexf => rw [goEntry] <;> first | exact MInv.throw _ | (intros; contradiction)
      | index => rw [goEntry] <;> first | exact MInv.throw _ | (intros; contradiction)
      | mat => rw [goEntry] <;> first | exact MInv.throw _ | (intros; contradiction)

theorem goStruct_inv (hQ : PayClosed Q) (h : DInv P Q d) (keys : List String) {l : List (String × Trav σ V F R)}
    (ht : ∀ x ∈ l, TravInv P Q x.2) (pi : List (PIdx F)) :
    ∀ (inner : Bool) (c : CIdx) (pay : Pay V), Q pay → MInv P (goStruct d keys l pi inner c pay) := by
  induction pi with
  | nil =>
    intro inner c pay hq
    rw [goStruct]
    exact (h.call inner pay c none none hq).bind fun r => MInv.pure _
  | cons p rest ih =>
    intro inner c pay hq
    have hent : ∀ (k : String) pi inner c pay, Q pay → MInv P
        (match l.reverse.find? (·.1 = k) with
          | some t => t.2 pi inner c pay
          | none => M.throw .generic) := by
      intro k pi inner c pay hq
      cases hf : l.reverse.find? (·.1 = k) with
      | none => exact MInv.throw _
      | some t => exact ht t (List.mem_reverse.1 (List.mem_of_find?_eq_some hf)) _ _ _ _ hq
    have hitems : ∀ (items : List (String × Pay V)) (pi : List (PIdx F)), (∀ kv ∈ items, Q kv.2) → MInv P
        (M.bind (M.forEach items fun kv =>
          M.bind (match l.reverse.find? (·.1 = kv.1) with
            | some t => t.2 pi inner (c ++ [.str kv.1]) kv.2
            | none => M.throw .generic) fun r => M.pure (kv.1, r)) fun r => M.pure (Tree.dict r)) := by
      intro items pi hi
      exact (MInv.forEach items fun kv hkv => (hent kv.1 pi inner _ kv.2 (hi kv hkv)).bind fun r => MInv.pure _).bind
        fun l => MInv.pure _
    have htab : ∀ (pi : List (PIdx F)), MInv P
        (M.bind (M.forEach l fun kt => M.bind (kt.2 pi inner (c ++ [.str kt.1]) pay) fun r => M.pure (kt.1, r))
          fun r => M.pure (Tree.dict r)) := by
      intro pi
      exact (MInv.forEach l fun x hx => (ht x hx _ _ _ _ hq).bind fun r => MInv.pure _).bind fun l => MInv.pure _
    cases p with
    | str k =>
      rw [goStruct]
      exact hent k rest inner _ pay hq
    | ellipsis =>
      rw [goStruct]
      refine (MInv.forEach _ fun ki _ => ?_).bind fun l => MInv.pure _
      exact MInv.exBind fun q hu => hent ki.1 rest inner _ q (hQ.unpack _ _ _ hq hu)
    | dict =>
      cases pay with
      | dict items => rw [goStruct]; exact hitems items rest (hQ.dict _ hq)
      | _ => rw [goStruct] <;> first | exact htab rest | (intros; contradiction)
    | nesteddict =>
      cases pay with
      | dict items => rw [goStruct]; exact hitems items [.nesteddict] (hQ.dict _ hq)
      | _ => rw [goStruct] <;> first | exact htab [.nesteddict] | (intros; contradiction)
    | set ks =>
      have hks : MInv P
          (M.bind (M.forEach ks fun k =>
            M.bind (match l.reverse.find? (·.1 = k) with
              | some t => t.2 rest inner (c ++ [.str k]) pay
              | none => M.throw .generic) fun r => M.pure (k, r)) fun r => M.pure (Tree.dict r)) :=
        (MInv.forEach ks fun k _ => (hent k rest inner _ pay hq).bind fun r => MInv.pure _).bind fun l => MInv.pure _
      cases pay with
      | dict items =>
        rw [goStruct]
        exact hitems _ rest fun kv hkv => hQ.dict _ hq kv (List.mem_of_mem_filter hkv)
      | _ => rw [goStruct] <;> first | exact hks | (intros; contradiction)
    | list ks =>
      rw [goStruct]
      refine (MInv.forEach _ fun si _ => ?_).bind fun l => MInv.pure _
      exact MInv.exBind fun q hu => ih inner _ q (hQ.unpack _ _ _ hq hu)
    | fn f =>
      rw [goStruct]
      exact (ih true c pay hq).bind fun r => h.outer _ _ _ _ _ hq
    | int => rw [goStruct] <;> first | exact MInv.throw _ | (intros; contradiction)
    | slice => rw [goStruct] <;> first | exact MInv.throw _ | (intros; contradiction)
    | indexf => rw [goStruct] <;> first | exact MInv.throw _ | (intros; contradiction)
    | index => rw [goStruct] <;> first | exact MInv.throw _ | (intros; contradiction)
    | mat => rw [goStruct] <;> first | exact MInv.throw _ | (intros; contradiction)

mutual
theorem leafTrav_inv (hQ : PayClosed Q) (h : DInv P Q d) : ∀ e : Entry, TravInv P Q (Entry.leafTrav d e)
  | .prim n ds p => by
    intro pi inner c pay hq
    rw [Entry.leafTrav]
    exact (h.call inner pay c _ _ hq).bind fun r => MInv.pure _
  | .nested n ds es o => by
    intro pi inner c pay hq
    rw [Entry.leafTrav]
    cases pi with
    | nil => exact (h.call inner pay c none none hq).bind fun r => MInv.pure _
    | cons p rest => exact goStruct_inv hQ h _ (travTable_inv hQ h es) (p :: rest) inner c pay hq
theorem travTable_inv (hQ : PayClosed Q) (h : DInv P Q d) : ∀ es : List Entry, ∀ x ∈ travTable d es, TravInv P Q x.2
  | [] => by rw [travTable]; simp
  | e :: es => by
    rw [travTable]
    intro x hx
    rcases List.mem_cons.1 hx with rfl | hx
    · exact goEntry_inv hQ h (leafTrav_inv hQ h e) e.dims
    · exact travTable_inv hQ h es x hx
end

theorem Struct.traverse_inv (hQ : PayClosed Q) (h : DInv P Q d) (s : Struct) (pi : List (PIdx F)) (pay : Pay V) (hq : Q pay) :
    MInv P (s.traverse d pi pay) := by
  intro st hst
  rw [Struct.traverse_fst]
  exact goStruct_inv hQ h _ (travTable_inv hQ h _) pi false [] pay hq st hst

end

end CE.St
