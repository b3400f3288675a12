import Verif.Struct.LemUniform
import Verif.Struct.PropsVeccat

/-! # Two assignments with the same power index

The positions that one assignment writes, successfully or not, are among those that another, successful one with the same power
index writes. -/

namespace CE.St

variable {V : Type}

/-- A value without dicts. -/
inductive Dictless : Pay V → Prop
  | none : Dictless .none
  | num (v) : Dictless (.num v)
  | mat (m) : Dictless (.mat m)
  | list {l} : (∀ p ∈ l, Dictless p) → Dictless (.list l)
  | rep {p} : Dictless p → Dictless (.rep p)

theorem Dictless.unpack {p q : Pay V} (h : Dictless p) {k : Key} (hq : payloadUnpack p k = .ok q) : Dictless q := by
  cases k with
  | str => cases hq
  | int i =>
    cases h with
    | none => cases hq; exact .none
    | num => cases hq; exact .num _
    | mat => cases hq; exact .mat _
    | rep h => cases hq; exact h
    | @list l h =>
      simp only [payloadUnpack] at hq
      split at hq
      · cases hq
      · exact h _ (pyIndex_mem hq)

theorem Dictless.not_dict {p : Pay V} (h : Dictless p) (items) : p ≠ .dict items := by
  rintro rfl
  cases h

/-- The positions of a record of writes. -/
abbrev Log (V : Type) := List (ℕ × V)

/-- Every position of the first record is in the second one. -/
def Covers (l l' : Log V) : Prop := ∀ k ∈ l.map (·.1), k ∈ l'.map (·.1)

theorem Covers.refl (l : Log V) : Covers l l := fun _ h => h

theorem Covers.trans {a b c : Log V} (h : Covers a b) (h' : Covers b c) : Covers a c := fun k hk => h' k (h k hk)

section
variable {α β α' β' : Type}

/-- The record only grows. -/
def Mono (y : M (Log V) β) : Prop := ∀ s, Covers s (y s).2

theorem Mono.of_inv {y : M (Log V) β} (h : ∀ s, MInv (Covers s) y) : Mono y := fun s => h s s (.refl s)

theorem Mono.bind {y : M (Log V) α} {g : α → M (Log V) β} (h : Mono y) (hg : ∀ b, Mono (g b)) : Mono (M.bind y g) := by
  intro s
  have h1 := h s
  simp only [M.bind]
  rcases hy : y s with ⟨r, u⟩
  rw [hy] at h1
  cases r with
  | ok b => exact h1.trans (hg b u)
  | error e => exact h1

theorem Mono.pure (b : β) : Mono (M.pure b : M (Log V) β) := fun s => .refl s

theorem Mono.ex (x : Except PyErr β) : Mono (St.ex x : M (Log V) β) := fun s => .refl s

theorem Mono.forEach {γ : Type} (l : List γ) {g : γ → M (Log V) β} (h : ∀ c ∈ l, Mono (g c)) : Mono (M.forEach l g) := by
  induction l with
  | nil => exact Mono.pure _
  | cons c l ih =>
    rw [M.forEach]
    exact (h c List.mem_cons_self).bind fun a => (ih fun d hd => h d (List.mem_cons_of_mem _ hd)).bind fun as => Mono.pure _

/-- If `y` succeeds, it has written at least what `x` has written, and the results are related if `x` succeeds, too. -/
def Cov (T : α → β → Prop) (x : M (Log V) α) (y : M (Log V) β) : Prop :=
  Mono y ∧ ∀ s s' b u', Covers s s' → y s' = (.ok b, u') → Covers (x s).2 u' ∧ ∀ a, (x s).1 = .ok a → T a b

theorem Cov.pure {T : α → β → Prop} {a b} (h : T a b) : Cov (V := V) T (M.pure a) (M.pure b) := by
  refine ⟨Mono.pure b, ?_⟩
  rintro s s' _ _ hs ⟨⟩
  exact ⟨hs, by rintro _ ⟨⟩; exact h⟩

theorem Cov.throw {T : α → β → Prop} {x : M (Log V) α} (e : PyErr) : Cov T x (M.throw e) :=
  ⟨fun s => .refl s, by rintro s s' b u' _ ⟨⟩⟩

theorem Cov.ex {T : α → β → Prop} {x : Except PyErr α} {y : Except PyErr β} (h : ∀ a b, x = .ok a → y = .ok b → T a b) :
    Cov (V := V) T (St.ex x) (St.ex y) := by
  refine ⟨Mono.ex y, ?_⟩
  intro s s' b u' hs hy
  have h1 : y = .ok b ∧ s' = u' := Prod.ext_iff.1 hy
  refine ⟨h1.2 ▸ hs, fun a ha => h a b ha h1.1⟩

theorem Cov.bind {T : α → β → Prop} {T' : α' → β' → Prop} {x : M (Log V) α} {y : M (Log V) β} {f : α → M (Log V) α'}
    {g : β → M (Log V) β'} (h : Cov T x y) (hg : ∀ b, Mono (g b)) (hf : ∀ a b, T a b → Cov T' (f a) (g b)) :
    Cov T' (M.bind x f) (M.bind y g) := by
  refine ⟨h.1.bind hg, ?_⟩
  intro s s' b u' hs hy
  simp only [M.bind] at hy ⊢
  rcases hy1 : y s' with ⟨r, u1⟩
  rw [hy1] at hy
  cases r with
  | error e => cases hy
  | ok b1 =>
    simp only at hy
    have h1 := h.2 s s' b1 u1 hs hy1
    rcases hx1 : x s with ⟨r, w⟩
    rw [hx1] at h1
    cases r with
    | error e =>
      refine ⟨h1.1.trans ?_, by rintro a ⟨⟩⟩
      have := hg b1 u1
      rwa [hy] at this
    | ok a => exact (hf a b1 (h1.2 a rfl)).2 w u1 b u' h1.1 hy

theorem Cov.forEach {γ : Type} {T : α → β → Prop} (l : List γ) {f : γ → M (Log V) α} {g : γ → M (Log V) β}
    (h : ∀ c ∈ l, Cov T (f c) (g c)) : Cov (List.Forall₂ T) (M.forEach l f) (M.forEach l g) := by
  induction l with
  | nil => exact Cov.pure .nil
  | cons c l ih =>
    rw [M.forEach, M.forEach]
    have h' := ih fun d hd => h d (List.mem_cons_of_mem _ hd)
    exact (h c List.mem_cons_self).bind (fun b => h'.1.bind fun _ => Mono.pure _) fun a b hab =>
      h'.bind (fun _ => Mono.pure _) fun as bs hl => Cov.pure (.cons hab hl)

theorem Cov.forEach₂ {γ δ : Type} {T : α → β → Prop} {Q : γ → δ → Prop} {l : List γ} {l' : List δ} (hl : List.Forall₂ Q l l')
    {f : γ → M (Log V) α} {g : δ → M (Log V) β} (h : ∀ c d, Q c d → Cov T (f c) (g d)) :
    Cov (List.Forall₂ T) (M.forEach l f) (M.forEach l' g) := by
  induction hl with
  | nil => exact Cov.pure .nil
  | cons hcd _ ih =>
    rw [M.forEach, M.forEach]
    exact (h _ _ hcd).bind (fun b => ih.1.bind fun _ => Mono.pure _) fun a b hab =>
      ih.bind (fun _ => Mono.pure _) fun as bs hl => Cov.pure (.cons hab hl)

/-- A part of the payload. -/
theorem Cov.unpack {T : α → β → Prop} {pay pay' : Pay V} (hp : Dictless pay) (hp' : Dictless pay') (k : Key)
    {f : Pay V → M (Log V) α} {g : Pay V → M (Log V) β} (hg : ∀ q, Mono (g q))
    (h : ∀ q q', Dictless q → Dictless q' → Cov T (f q) (g q')) :
    Cov T (M.bind (St.ex (payloadUnpack pay k)) f) (M.bind (St.ex (payloadUnpack pay' k)) g) :=
  (Cov.ex (T := fun q q' => Dictless q ∧ Dictless q') fun _ _ ha hb => ⟨hp.unpack ha, hp'.unpack hb⟩).bind hg
    fun q q' hq => h q q' hq.1 hq.2

end

section
variable {F R : Type} {T : Tree R → Tree R → Prop} {OK : F → Prop} {d : Disp (Log V) V F R}

/-- What the calls of a dispatcher do for two payloads. -/
structure DCov (T : Tree R → Tree R → Prop) (OK : F → Prop) (d : Disp (Log V) V F R) : Prop where
  mono : ∀ s, DInv (Covers s) (fun _ => True) d
  list : ∀ {l l'}, List.Forall₂ T l l' → T (.list l) (.list l')
  dict : ∀ {l l'}, List.Forall₂ (fun x y => x.1 = y.1 ∧ T x.2 y.2) l l' → T (.dict l) (.dict l')
  call : ∀ inner pay pay' c x e, Fns OK (x.getD []) →
    Cov (fun r r' => T (.leaf r) (.leaf r')) (d.call inner pay c x e) (d.call inner pay' c x e)
  outer : ∀ inner f pay pay' c r r', OK f → T r r' → Cov T (d.outer inner f pay c r) (d.outer inner f pay' c r')

theorem DCov.closed : PayClosed (V := V) fun _ => True := ⟨fun _ _ _ _ _ => trivial, fun _ _ _ _ => trivial⟩

/-- The traversal of the entry of that name. -/
def lookupTrav {σ V F R : Type} (l : List (String × Trav σ V F R)) (k : String) : Trav σ V F R := fun pi inner c pay =>
  match l.reverse.find? (·.1 = k) with
  | some t => t.2 pi inner c pay
  | none => M.throw .generic

/-- The record of a traversal only grows. -/
def TravMono (t : Trav (Log V) V F R) : Prop := ∀ pi inner c pay, Mono (t pi inner c pay)

/-- What a traversal does for two payloads. -/
def TravCov (T : Tree R → Tree R → Prop) (OK : F → Prop) (t : Trav (Log V) V F R) : Prop :=
  ∀ pi inner c pay pay', Fns OK pi → Dictless pay → Dictless pay' → Cov T (t pi inner c pay) (t pi inner c pay')

theorem DCov.entry_mono (h : DCov T OK d) (e : Entry) (ds : List ℕ) : TravMono (goEntry d (Entry.leafTrav d e) ds) :=
  fun pi inner c pay => .of_inv fun s => goEntry_inv DCov.closed (h.mono s) (leafTrav_inv DCov.closed (h.mono s) e) ds pi inner c pay
    trivial

theorem goEntry_cov (h : DCov T OK d) {leaf : Trav (Log V) V F R} (hl : TravCov T OK leaf)
    (hm : ∀ ds, TravMono (goEntry d leaf ds)) (ds : List ℕ) : TravCov T OK (goEntry d leaf ds) := by
  induction ds with
  | nil =>
    intro pi inner c pay pay' hf hp hp'
    rw [goEntry_nil, goEntry_nil]
    exact hl pi inner c pay pay' hf hp hp'
  | cons s ds ih =>
    have step : ∀ (pi : List (PIdx F)) (inner : Bool) (c : CIdx) (pay pay' : Pay V) (k : Key) (i : ℤ), Fns OK pi →
        Dictless pay → Dictless pay' → Cov T
          (M.bind (ex (payloadUnpack pay k)) fun q => goEntry d leaf ds pi inner (c ++ [.int i]) q)
          (M.bind (ex (payloadUnpack pay' k)) fun q => goEntry d leaf ds pi inner (c ++ [.int i]) q) := by
      intro pi inner c pay pay' k i hf hp hp'
      exact Cov.unpack hp hp' k (fun q => hm ds _ _ _ _) fun q q' hq hq' => ih _ _ _ _ _ hf hq hq'
    intro pi
    induction pi with
    | nil =>
      intro inner c pay pay' _ hp hp'
      rw [goEntry, goEntry]
      refine (Cov.ex (T := (· = ·)) fun a b ha hb => Except.ok.inj (ha.symm.trans hb)).bind (fun is => ?_) ?_
      · exact (Mono.forEach _ fun i _ => (Mono.ex _).bind fun q => hm ds _ _ _ _).bind fun _ => Mono.pure _
      rintro is _ rfl
      exact (Cov.forEach is fun i _ => step _ _ _ _ _ _ _ (Fns.alls ds) hp hp').bind (fun _ => Mono.pure _)
        fun l l' hll => Cov.pure (h.list hll)
    | cons p rest ihp =>
      intro inner c pay pay' hf hp hp'
      cases p with
      | slice x y z =>
        rw [goEntry, goEntry]
        refine (Cov.ex (T := (· = ·)) fun a b ha hb => Except.ok.inj (ha.symm.trans hb)).bind (fun is => ?_) ?_
        · exact (Mono.forEach _ fun i _ => (Mono.ex _).bind fun q => hm ds _ _ _ _).bind fun _ => Mono.pure _
        rintro is _ rfl
        exact (Cov.forEach is fun i _ => step _ _ _ _ _ _ _ hf.tail hp hp').bind (fun _ => Mono.pure _)
          fun l l' hll => Cov.pure (h.list hll)
      | int i =>
        rw [goEntry_int, goEntry_int]
        exact ih _ _ _ _ _ hf.tail hp hp'
      | list l =>
        rw [goEntry, goEntry]
        refine (Cov.forEach l fun i _ => ?_).bind (fun _ => Mono.pure _) fun l l' hll => Cov.pure (h.list hll)
        cases i with
        | str => exact Cov.unpack hp hp' _ (fun _ s => .refl s) fun _ _ _ _ => Cov.throw _
        | int i => exact step _ _ _ _ _ _ _ hf.tail hp hp'
      | nesteddict =>
        rw [goEntry, goEntry]
        exact (Cov.forEach _ fun i _ => step _ _ _ _ _ _ _ Fns.nested hp hp').bind (fun _ => Mono.pure _)
          fun l l' hll => Cov.pure (h.list hll)
      | fn f =>
        rw [goEntry, goEntry]
        exact (ihp true c pay pay' hf.tail hp hp').bind (fun r => .of_inv fun s => (h.mono s).outer _ _ _ _ _ trivial)
          fun r r' hr => h.outer _ _ _ _ _ _ _ hf.head hr
      | str => rw [goEntry, goEntry] <;> first | exact Cov.throw _ | (intros; contradiction)
      | ellipsis => rw [goEntry, goEntry] <;> first | exact Cov.throw _ | (intros; contradiction)
      | dict => rw [goEntry, goEntry] <;> first | exact Cov.throw _ | (intros; contradiction)
      | set => rw [goEntry, goEntry] <;> first | exact Cov.throw _ | (intros; contradiction)
      | indexf => rw [goEntry, goEntry] <;> first | exact Cov.throw _ | (intros; contradiction)
      | index => rw [goEntry, goEntry] <;> first | exact Cov.throw _ | (intros; contradiction)
      | mat => rw [goEntry, goEntry] <;> first | exact Cov.throw _ | (intros; contradiction)

/-- The traversals of the entries. -/
def TableCov (T : Tree R → Tree R → Prop) (OK : F → Prop) (l : List (String × Trav (Log V) V F R)) : Prop :=
  ∀ x ∈ l, TravMono x.2 ∧ TravCov T OK x.2

theorem table_find_cov {l : List (String × Trav (Log V) V F R)} (h : TableCov T OK l) (k : String) :
    TravMono (lookupTrav l k) ∧ TravCov T OK (lookupTrav l k) := by
  cases hk : l.reverse.find? (·.1 = k) with
  | none =>
    have e : ∀ pi inner c pay, lookupTrav l k pi inner c pay = M.throw .generic := by
      intro pi inner c pay; simp only [lookupTrav, hk]
    exact ⟨fun _ _ _ _ s => by rw [e]; exact .refl s, fun _ _ _ _ _ _ _ _ => by rw [e, e]; exact Cov.throw _⟩
  | some t =>
    have e : ∀ pi inner c pay, lookupTrav l k pi inner c pay = t.2 pi inner c pay := by
      intro pi inner c pay; simp only [lookupTrav, hk]
    have ht := h t (List.mem_reverse.1 (List.mem_of_find?_eq_some hk))
    exact ⟨fun _ _ _ _ => by rw [e]; exact ht.1 _ _ _ _, fun _ _ _ _ _ hf hp hp' => by rw [e, e]; exact ht.2 _ _ _ _ _ hf hp hp'⟩

theorem goStruct_cov (h : DCov T OK d) (keys : List String) {l : List (String × Trav (Log V) V F R)} (ht : TableCov T OK l)
    (pi : List (PIdx F)) : ∀ (inner : Bool) (c : CIdx) (pay pay' : Pay V), Fns OK pi → Dictless pay → Dictless pay' →
      Cov T (goStruct d keys l pi inner c pay) (goStruct d keys l pi inner c pay') := by
  have hmono : TravMono (goStruct d keys l) := fun pi inner c pay => .of_inv fun s =>
    goStruct_inv DCov.closed (h.mono s) keys (fun x hx pi inner c pay _ u hu => hu.trans ((ht x hx).1 pi inner c pay u)) pi inner c
      pay trivial
  induction pi with
  | nil =>
    intro inner c pay pay' _ _ _
    rw [goStruct, goStruct]
    exact (h.call inner pay pay' c none none (by intro p hp; cases hp)).bind (fun _ => Mono.pure _) fun r r' hr => Cov.pure hr
  | cons p rest ih =>
    intro inner c pay pay' hf hp hp'
    have hent : ∀ (k : String) pi inner pay pay', Fns OK pi → Dictless pay → Dictless pay' → Cov T
        (lookupTrav l k pi inner (c ++ [.str k]) pay) (lookupTrav l k pi inner (c ++ [.str k]) pay') := by
      intro k pi inner pay pay' hf hp hp'
      exact (table_find_cov ht k).2 pi inner _ pay pay' hf hp hp'
    have htab : ∀ (pi : List (PIdx F)) (hf : Fns OK pi), Cov T
        (M.bind (M.forEach l fun kt => M.bind (kt.2 pi inner (c ++ [.str kt.1]) pay) fun r => M.pure (kt.1, r))
          fun r => M.pure (.dict r))
        (M.bind (M.forEach l fun kt => M.bind (kt.2 pi inner (c ++ [.str kt.1]) pay') fun r => M.pure (kt.1, r))
          fun r => M.pure (.dict r)) := by
      intro pi hf
      refine (Cov.forEach l (T := fun x y => x.1 = y.1 ∧ T x.2 y.2) fun x hx => ?_).bind (fun _ => Mono.pure _) fun l l' hll =>
        Cov.pure (h.dict hll)
      exact ((ht x hx).2 pi inner _ pay pay' hf hp hp').bind (fun _ => Mono.pure _) fun r r' hr => Cov.pure ⟨rfl, hr⟩
    cases p with
    | str k =>
      rw [goStruct, goStruct]
      exact hent k rest inner pay pay' hf.tail hp hp'
    | ellipsis =>
      rw [goStruct, goStruct]
      refine (Cov.forEach _ fun ki _ => ?_).bind (fun _ => Mono.pure _) fun l l' hll => Cov.pure (h.list hll)
      exact Cov.unpack hp hp' _ (fun q => (table_find_cov ht ki.1).1 rest inner _ q) fun q q' hq hq' =>
        hent ki.1 rest inner q q' hf.tail hq hq'
    | dict =>
      have e : ∀ pay : Pay V, Dictless pay → goStruct d keys l (.dict :: rest) inner c pay = M.bind (M.forEach l fun kt =>
          M.bind (kt.2 rest inner (c ++ [.str kt.1]) pay) fun r => M.pure (kt.1, r)) fun r => M.pure (.dict r) := by
        intro pay hp
        cases pay <;> first | cases hp; done | (rw [goStruct]; intros; contradiction)
      rw [e pay hp, e pay' hp']
      exact htab rest hf.tail
    | nesteddict =>
      have e : ∀ pay : Pay V, Dictless pay → goStruct d keys l (.nesteddict :: rest) inner c pay = M.bind (M.forEach l fun kt =>
          M.bind (kt.2 [.nesteddict] inner (c ++ [.str kt.1]) pay) fun r => M.pure (kt.1, r)) fun r => M.pure (.dict r) := by
        intro pay hp
        cases pay <;> first | cases hp; done | (rw [goStruct]; intros; contradiction)
      rw [e pay hp, e pay' hp']
      exact htab [.nesteddict] Fns.nested
    | set ks =>
      have e : ∀ pay : Pay V, Dictless pay → goStruct d keys l (.set ks :: rest) inner c pay = M.bind (M.forEach ks fun k =>
            M.bind (lookupTrav l k rest inner (c ++ [.str k]) pay) fun r => M.pure (k, r)) fun r => M.pure (.dict r) := by
        intro pay hp
        cases pay <;> first | cases hp; done | (rw [goStruct] <;> first | rfl | (intros; contradiction))
      rw [e pay hp, e pay' hp']
      refine (Cov.forEach ks (T := fun x y => x.1 = y.1 ∧ T x.2 y.2) fun k _ => ?_).bind (fun _ => Mono.pure _) fun l l' hll =>
        Cov.pure (h.dict hll)
      exact (hent k rest inner pay pay' hf.tail hp hp').bind (fun _ => Mono.pure _) fun r r' hr => Cov.pure ⟨rfl, hr⟩
    | list ks =>
      rw [goStruct, goStruct]
      refine (Cov.forEach _ fun si _ => ?_).bind (fun _ => Mono.pure _) fun l l' hll => Cov.pure (h.list hll)
      exact Cov.unpack hp hp' _ (fun q => hmono rest inner _ q) fun q q' hq hq' => ih inner _ q q' hf.tail hq hq'
    | fn f =>
      rw [goStruct, goStruct]
      exact (ih true c pay pay' hf.tail hp hp').bind (fun r => .of_inv fun s => (h.mono s).outer _ _ _ _ _ trivial)
        fun r r' hr => h.outer _ _ _ _ _ _ _ hf.head hr
    | int => rw [goStruct, goStruct] <;> first | exact Cov.throw _ | (intros; contradiction)
    | slice => rw [goStruct, goStruct] <;> first | exact Cov.throw _ | (intros; contradiction)
    | indexf => rw [goStruct, goStruct] <;> first | exact Cov.throw _ | (intros; contradiction)
    | index => rw [goStruct, goStruct] <;> first | exact Cov.throw _ | (intros; contradiction)
    | mat => rw [goStruct, goStruct] <;> first | exact Cov.throw _ | (intros; contradiction)

mutual
theorem leafTrav_cov (h : DCov T OK d) : ∀ e : Entry, TravCov T OK (Entry.leafTrav d e)
  | .prim n ds p => by
    intro pi inner c pay pay' hf _ _
    rw [Entry.leafTrav]
    refine (h.call inner pay pay' c _ _ ?_).bind (fun _ => Mono.pure _) fun r r' hr => Cov.pure hr
    split
    · intro p hp; cases hp
    · exact hf
  | .nested n ds es o => by
    intro pi inner c pay pay' hf hp hp'
    rw [Entry.leafTrav]
    cases pi with
    | nil => exact (h.call inner pay pay' c none none (by intro p hp; cases hp)).bind (fun _ => Mono.pure _) fun r r' hr => Cov.pure hr
    | cons p rest => exact goStruct_cov h _ (travTable_cov h es) (p :: rest) inner c pay pay' hf hp hp'
theorem travTable_cov (h : DCov T OK d) : ∀ es : List Entry, TableCov T OK (travTable d es)
  | [] => by rw [travTable]; intro x hx; cases hx
  | e :: es => by
    rw [travTable]
    intro x hx
    rcases List.mem_cons.1 hx with rfl | hx
    · exact ⟨h.entry_mono e e.dims, goEntry_cov h (leafTrav_cov h e) (h.entry_mono e) e.dims⟩
    · exact travTable_cov h es x hx
end

end

/-! ## The positions that are written -/

/-- The index matrix has as many positions as elements. -/
def Full (i : IMat) : Prop := i.data.length = i.sp.nz.length

/-- A callable that makes genuine matrices of genuine matrices. -/
def PyFn.Genuine (f : PyFn V) : Prop := ∀ t i, t.All Full → f.onIdx t = .ok i → Full i

theorem subMat_full (i : IMat) (r c : ℕ) (f : ℕ × ℕ → ℕ × ℕ) : Full (subMat i r c f) := by
  simp only [Full, subMat, List.length_map]

theorem getMat_part {i r : IMat} {m : SMat ℤ} (h : getMat i m = .ok r) : ∃ a b f, r = partMat i a b f := by
  unfold getMat at h
  cases hl : normIdx (i.sp.rows * i.sp.cols) m.data with
  | error e => rw [hl] at h; cases h
  | ok l => rw [hl] at h; cases h; exact ⟨_, _, _, rfl⟩

theorem getLin_cases {F : Type} (i : IMat) (a : PIdx F) : (∃ m, a = .mat m ∧ getLin i a = getMat i m) ∨ getLin i a = getSel i a := by
  cases a with
  | mat m => exact .inl ⟨m, rfl, rfl⟩
  | _ => exact .inr rfl

theorem getLin_full {F : Type} {i r : IMat} {a : PIdx F} (h : getLin i a = .ok r) : Full r := by
  rcases getLin_cases i a with ⟨m, -, e⟩ | e
  · rw [e] at h
    obtain ⟨a, b, f, rfl⟩ := getMat_part h
    simp only [Full, partMat, List.length_map]
  rw [e] at h
  unfold getSel at h
  cases hl : selIdx (i.sp.rows * i.sp.cols) a with
  | error e => rw [hl] at h; cases h
  | ok l =>
    rw [hl] at h
    change (if i.sp.rows = 1 then _ else _) = _ at h
    split at h <;> cases h <;> exact subMat_full _ _ _ _

theorem getRC_full {F : Type} {i r : IMat} {a b : PIdx F} (h : getRC i a b = .ok r) : Full r := by
  unfold getRC at h
  cases hl : selIdx i.sp.rows a with
  | error e => rw [hl] at h; cases h
  | ok l =>
    cases hl' : selIdx i.sp.cols b with
    | error e => rw [hl, hl'] at h; cases h
    | ok l' =>
      rw [hl, hl'] at h
      cases h
      exact subMat_full _ _ _ _

theorem performExtraIndex_full {i : IMat} (hi : Full i) (entry : Option Prim) (flip : Bool) (x : List (PIdx (PyFn V))) :
    Fns PyFn.Genuine x → ∀ {r : IMat}, performExtraIndex applyIdx i entry flip x = .ok r → Full r := by
  fun_induction performExtraIndex applyIdx i entry flip x with
  | case1 => rintro _ r ⟨⟩; exact hi
  | case2 f rest ih =>
    intro hf r hr
    cases h1 : performExtraIndex applyIdx i entry flip rest with
    | error e => rw [h1] at hr; cases hr
    | ok r1 => rw [h1] at hr; exact hf.head (.leaf r1) r (ih hf.tail h1) hr
  | case3 => rintro _ r ⟨⟩; exact hi
  | case4 a h1 h2 =>
    intro _ r hr
    cases ha : delegation a entry 0 with
    | error e => rw [ha] at hr; cases hr
    | ok a' => rw [ha] at hr; exact getLin_full hr
  | case5 a b h1 h2 =>
    intro _ r hr
    cases ha : delegation a entry 0 with
    | error e => rw [ha] at hr; cases hr
    | ok a' =>
      cases hb : delegation b entry 1 with
      | error e => rw [ha, hb] at hr; cases hr
      | ok b' =>
        rw [ha, hb] at hr
        simp only [Except.bind] at hr
        split at hr <;> exact getRC_full hr
  | case6 => rintro _ r ⟨⟩

variable [Zero V]

theorem logAssign_mem {n : ℕ} {s s1 : Log V} {i : IMat} {m : SMat V} (hi : Full i) (h : logAssign n s i m = .ok s1) (k : ℕ) :
    k ∈ s1.map (·.1) ↔ k ∈ s.map (·.1) ∨ k ∈ i.data := by
  have hz : ∀ l : List V, l.length = i.sp.nz.length → (i.data.zip l).map (·.1) = i.data := by
    intro l hl
    exact List.map_fst_zip (by rw [hl, hi])
  unfold logAssign at h
  split at h
  · cases h
  split at h
  · cases h
    rw [List.map_append, List.mem_append, hz _ (List.length_map _)]
  split at h
  · cases h
    rw [List.map_append, List.mem_append, List.map_map]
    simp
  split at h
  · cases h
    rw [List.map_append, List.mem_append, hz _ (List.length_map _)]
  · cases h

theorem logAssign_mono (n : ℕ) (s0 s : Log V) (i : IMat) (m : SMat V) (s1 : Log V) (hs : Covers s0 s)
    (h : logAssign n s i m = .ok s1) : Covers s0 s1 := by
  refine hs.trans fun k hk => ?_
  unfold logAssign at h
  repeat' split at h
  all_goals cases h
  all_goals rw [List.map_append]; exact List.mem_append_left _ hk

/-- The positions that a call of the dispatcher for writing is meant to write. -/
def Touched (map : List (CIdx × IMat)) (c : CIdx) (x : Option (List (PIdx (PyFn V)))) (e : Option Prim) (k : ℕ) : Prop :=
  ∃ idx i, dictGet map c = some idx ∧ k ∈ i.data ∧ (performExtraIndex applyIdx idx e false (x.getD []) = .ok i ∨
    (∃ p, e = some p ∧ p.symm = true) ∧ performExtraIndex applyIdx idx e true (x.getD []) = .ok i)

/-- A result of a call: only those positions are written, and all of them if it is successful. -/
def LogOK (map : List (CIdx × IMat)) (c : CIdx) (x : Option (List (PIdx (PyFn V)))) (e : Option Prim) (s : Log V)
    (r : Except PyErr Unit × Log V) : Prop :=
  (∀ k ∈ r.2.map (·.1), k ∈ s.map (·.1) ∨ Touched map c x e k) ∧ (r.1 = .ok () → ∀ k, Touched map c x e k → k ∈ r.2.map (·.1))

theorem setCallOn_log {map : List (CIdx × IMat)} (hm : ∀ c i, dictGet map c = some i → Full i) (n : ℕ) (pay : Pay V) (c : CIdx)
    (x : Option (List (PIdx (PyFn V)))) (hx : Fns PyFn.Genuine (x.getD [])) (e : Option Prim) (s : Log V) :
    LogOK map c x e s (setCallOn (logAssign n) map pay c x e s) := by
  have bad : ∀ er : PyErr, LogOK map c x e s (.error er, s) := fun er => ⟨fun k hk => .inl hk, by rintro ⟨⟩⟩
  unfold setCallOn
  cases pay.toMat with
  | error => exact bad _
  | ok m =>
    simp only
    cases hidx : dictGet map c with
    | none => exact bad _
    | some idx =>
      simp only
      cases hi : performExtraIndex applyIdx idx e false (x.getD []) with
      | error => exact bad _
      | ok i =>
        simp only
        have fi := performExtraIndex_full (hm c idx hidx) e false _ hx hi
        have ti : ∀ k ∈ i.data, Touched map c x e k := fun k hk => ⟨idx, i, hidx, hk, .inl hi⟩
        have plain : (¬ ∃ p, e = some p ∧ p.symm = true) → ∀ s1, logAssign n s i m = .ok s1 → LogOK map c x e s (.ok (), s1) := by
          intro hsym s1 h1
          refine ⟨fun k hk => ((logAssign_mem fi h1 k).1 hk).imp_right (ti k), fun _ k hk => ?_⟩
          obtain ⟨idx', i', h2, h3, h4 | h4⟩ := hk
          · rw [hidx] at h2
            cases h2
            rw [hi] at h4
            cases h4
            exact (logAssign_mem fi h1 k).2 (.inr h3)
          · exact (hsym h4.1).elim
        rcases e with _ | ⟨sp, sy, orig, ss⟩
        · simp only
          cases h1 : logAssign n s i m with
          | error => exact bad _
          | ok s1 => exact plain (by rintro ⟨p, h, _⟩; cases h) s1 h1
        · cases sy with
          | false =>
            simp only
            cases h1 : logAssign n s i m with
            | error => exact bad _
            | ok s1 => exact plain (by rintro ⟨p, h, h'⟩; cases h; cases h') s1 h1
          | true =>
            simp only
            cases hj : performExtraIndex applyIdx idx (some ⟨sp, true, orig, ss⟩) true (x.getD []) with
            | error => exact bad _
            | ok j =>
              simp only
              have fj := performExtraIndex_full (hm c idx hidx) _ true _ hx hj
              have tj : ∀ k ∈ j.data, Touched map c x (some ⟨sp, true, orig, ss⟩) k :=
                fun k hk => ⟨idx, j, hidx, hk, .inr ⟨⟨_, rfl, rfl⟩, hj⟩⟩
              have all : ∀ k, Touched map c x (some ⟨sp, true, orig, ss⟩) k → k ∈ i.data ∨ k ∈ j.data := by
                rintro k ⟨idx', i', h2, h3, h4 | ⟨-, h4⟩⟩
                · rw [hidx] at h2
                  cases h2
                  rw [hi] at h4
                  cases h4
                  exact .inl h3
                · rw [hidx] at h2
                  cases h2
                  rw [hj] at h4
                  cases h4
                  exact .inr h3
              split
              · cases h1 : logAssign n s i m with
                | error => exact bad _
                | ok s1 =>
                  simp only
                  have hs1 : ∀ k ∈ s1.map (·.1), k ∈ s.map (·.1) ∨ Touched map c x (some ⟨sp, true, orig, ss⟩) k :=
                    fun k hk => ((logAssign_mem fi h1 k).1 hk).imp_right (ti k)
                  cases h2 : logAssign n s1 j m with
                  | error => exact ⟨hs1, by rintro ⟨⟩⟩
                  | ok s2 =>
                    refine ⟨fun k hk => ((logAssign_mem fj h2 k).1 hk).elim (hs1 k) fun h => .inr (tj k h), fun _ k hk => ?_⟩
                    refine (logAssign_mem fj h2 k).2 ((all k hk).imp_left fun h => (logAssign_mem fi h1 k).2 (.inr h))
              · cases orig with
                | none => exact bad _
                | some osp =>
                  simp only
                  cases performExtraIndex applyIdx ⟨osp, osp.nz.map fun _ => 1⟩ (some ⟨sp, true, some osp, ss⟩) false (x.getD []) with
                  | error => exact bad _
                  | ok oi =>
                    simp only
                    split
                    · exact bad _
                    · split
                      · exact bad _
                      · cases h1 : logAssign n s j (m.T.project j.sp) with
                        | error => exact bad _
                        | ok s1 =>
                          have hs1 : ∀ k ∈ s1.map (·.1), k ∈ s.map (·.1) ∨ Touched map c x (some ⟨sp, true, some osp, ss⟩) k :=
                            fun k hk => ((logAssign_mem fj h1 k).1 hk).imp_right (tj k)
                          simp only
                          split
                          · exact ⟨hs1, by rintro ⟨⟩⟩
                          · cases h2 : logAssign n s1 i (m.project i.sp) with
                            | error => exact ⟨hs1, by rintro ⟨⟩⟩
                            | ok s2 =>
                              refine ⟨fun k hk => ((logAssign_mem fi h2 k).1 hk).elim (hs1 k) fun h => .inr (ti k h),
                                fun _ k hk => ?_⟩
                              exact (logAssign_mem fi h2 k).2 ((all k hk).symm.imp_left fun h => (logAssign_mem fj h1 k).2 (.inr h))

/-- Two writes with the same power index. -/
theorem setDispOn_cov {map : List (CIdx × IMat)} (hm : ∀ c i, dictGet map c = some i → Full i) (n : ℕ) :
    DCov (AllT Full) PyFn.Genuine (setDispOn (logAssign (V := V) n) map) where
  mono s := setDispOn_inv (fun s1 i m s2 => logAssign_mono n s s1 i m s2) map
  list h := AllT.list h
  dict h := AllT.dict h
  call inner pay pay' c x e hx := by
    simp only [setDispOn]
    split
    · refine Cov.ex fun a b ha hb => ?_
      cases ha.symm.trans hb
      refine ⟨rfl, ?_⟩
      rintro i rfl
      unfold imCall at ha
      cases hc : dictGet map c with
      | none => rw [hc] at ha; cases ha
      | some idx =>
        rw [hc] at ha
        simp only at ha
        cases hi : performExtraIndex applyIdx idx e false (x.getD []) with
        | error => rw [hi] at ha; cases ha
        | ok i' =>
          rw [hi] at ha
          cases ha
          exact performExtraIndex_full (hm c idx hc) e false _ hx hi
    · refine Cov.bind (T := fun _ _ => True) ⟨.of_inv fun s => setCallOn_inv (fun s1 i m s2 => logAssign_mono n s s1 i m s2) _ _ _ _ _,
        ?_⟩ (fun _ => Mono.pure _) fun _ _ _ => Cov.pure ⟨rfl, fun i hi => by cases hi⟩
      intro s s' b u' hs hy
      refine ⟨fun k hk => ?_, fun _ _ => trivial⟩
      obtain ⟨h1, -⟩ := setCallOn_log hm n pay c x hx e s
      obtain ⟨-, h2⟩ := setCallOn_log hm n pay' c x hx e s'
      have hmono := Mono.of_inv (fun s0 => setCallOn_inv (fun s1 i m s2 => logAssign_mono n s0 s1 i m s2) map pay' c x e) s'
      rw [hy] at h2 hmono
      exact (h1 k hk).elim (fun h => hmono k (hs k h)) (h2 rfl k)
  outer inner f pay pay' c r r' hf hr := by
    obtain ⟨rfl, hr⟩ := hr
    refine ⟨.of_inv fun s => (setDispOn_inv (fun s1 i m s2 => logAssign_mono n s s1 i m s2) map).outer _ _ _ _ _ trivial, ?_⟩
    intro s s' b u' hs hy
    simp only [setDispOn] at hy ⊢
    cases ht : r.mapM' theIdx with
    | error e => erw [ht] at hy; cases hy
    | ok t =>
      erw [ht] at hy
      simp only at hy ⊢
      cases hi : f.onIdx t with
      | error e => rw [hi] at hy; cases hy
      | ok i =>
        have fi := hf t i (mapM'_within hr ht) hi
        rw [hi] at hy
        simp only at hy ⊢
        cases inner with
        | true =>
          cases hy
          refine ⟨hs, ?_⟩
          rintro _ ⟨⟩
          exact ⟨rfl, by rintro _ ⟨⟩; exact fi⟩
        | false =>
          simp only [Bool.false_eq_true, if_false] at hy ⊢
          cases hp' : pay'.toMat with
          | error e => rw [hp'] at hy; cases hy
          | ok m' =>
            rw [hp'] at hy
            simp only at hy
            cases h1 : logAssign n s' i m' with
            | error e => rw [h1] at hy; cases hy
            | ok s1 =>
              rw [h1] at hy
              cases hy
              have hc : Covers s u' := fun k hk => (logAssign_mem fi h1 k).2 (.inl (hs k hk))
              cases pay.toMat with
              | error e => exact ⟨hc, by rintro _ ⟨⟩⟩
              | ok m =>
                simp only
                cases h2 : logAssign n s i m with
                | error e => exact ⟨hc, by rintro _ ⟨⟩⟩
                | ok s2 =>
                  refine ⟨fun k hk => ?_, ?_⟩
                  · exact ((logAssign_mem fi h2 k).1 hk).elim (hc k) fun h => (logAssign_mem fi h1 k).2 (.inr h)
                  · rintro _ ⟨⟩
                    exact ⟨rfl, fun i hi => by cases hi⟩

/-- An assignment writes, successfully or not, only positions that a successful one with the same power index writes. -/
theorem setitemOn_cov (c : CS) (hm : ∀ a i, dictGet c.map a = some i → Full i) (n : ℕ) (pi : List (PIdx (PyFn V)))
    (hf : Fns PyFn.Genuine pi) {v w : Pay V} (hv : Dictless v) (hw : Dictless w)
    (hok : (setitemOn (logAssign n) c pi w []).1 = .ok ()) :
    Covers (setitemOn (logAssign n) c pi v []).2 (setitemOn (logAssign n) c pi w []).2 := by
  have hd := setDispOn_cov (V := V) hm n
  have h := goStruct_cov hd c.struct.keys (travTable_cov hd c.struct.entries) pi false [] v w hf hv hw
  unfold setitemOn Struct.traverse at hok ⊢
  rcases hx : goStruct (setDispOn (logAssign n) c.map) c.struct.keys (travTable (setDispOn (logAssign n) c.map) c.struct.entries) pi
    false [] v [] with ⟨r, u⟩
  rcases hy : goStruct (setDispOn (logAssign n) c.map) c.struct.keys (travTable (setDispOn (logAssign n) c.map) c.struct.entries) pi
    false [] w [] with ⟨r', u'⟩
  rw [hy] at hok
  cases r' with
  | error e => cases hok
  | ok b =>
    have := (h.2 [] [] b u' (.refl _) hy).1
    rw [hx] at this
    cases r <;> exact this

omit [Zero V] in
theorem lastWrite_isSome (n : ℕ) (l : Log V) {j : ℕ} (hj : j < n) : (lastWrite n l j).isSome ↔ j ∈ l.map (·.1) := by
  induction l with
  | nil => simp [lastWrite]
  | cons x l ih =>
    rw [lastWrite, Option.isSome_or, Bool.or_eq_true, ih, List.map_cons, List.mem_cons]
    by_cases h : x.1 = j
    · rw [if_pos ⟨h, hj⟩]; simp [h]
    · rw [if_neg (fun h' => h h'.1)]; simp [Ne.symm h]

end CE.St
