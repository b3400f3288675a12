import Verif.Struct.PropsPickle
import Verif.Struct.PropsSymm
import Verif.Struct.LemSim

/-! # Traversals of the entries before and after pickling -/

namespace CE.St

/-! ## A traversal that may raise more often -/

section
variable {σ α β : Type}

/-- What `x` does without an exception, `y` does too. -/
def Ref (x y : M σ α) : Prop := ∀ s a u, x s = (.ok a, u) → y s = (.ok a, u)

theorem Ref.refl (x : M σ α) : Ref x x := fun _ _ _ h => h

theorem Ref.bind {x y : M σ α} {f g : α → M σ β} (h : Ref x y) (hf : ∀ a, Ref (f a) (g a)) : Ref (M.bind x f) (M.bind y g) := by
  intro s b u hb
  simp only [M.bind] at hb ⊢
  rcases hx : x s with ⟨r, w⟩
  rw [hx] at hb
  cases r with
  | error e => cases hb
  | ok a =>
    rw [h s a w hx]
    exact hf a w b u hb

theorem Ref.forEach {γ : Type} (l : List γ) {f g : γ → M σ α} (h : ∀ c, Ref (f c) (g c)) : Ref (M.forEach l f) (M.forEach l g) := by
  induction l with
  | nil => exact Ref.refl _
  | cons c l ih =>
    rw [M.forEach, M.forEach]
    exact (h c).bind fun a => ih.bind fun as => Ref.refl _

theorem Ref.forEach₂ {γ δ : Type} {Q : γ → δ → Prop} {l : List γ} {l' : List δ} (hl : List.Forall₂ Q l l')
    {f : γ → M σ α} {g : δ → M σ α} (h : ∀ c d, Q c d → Ref (f c) (g d)) : Ref (M.forEach l f) (M.forEach l' g) := by
  induction hl with
  | nil => exact Ref.refl _
  | cons hq _ ih =>
    rw [M.forEach, M.forEach]
    exact (h _ _ hq).bind fun a => ih.bind fun as => Ref.refl _

end

section
variable {σ V F R : Type}

/-- The same for traversals. -/
def TravRef (t t' : Trav σ V F R) : Prop := ∀ pi inner c pay, Ref (t pi inner c pay) (t' pi inner c pay)

variable {d : Disp σ V F R}

theorem goEntry_ref {leaf leaf' : Trav σ V F R} (hl : TravRef leaf leaf') (ds : List ℕ) :
    TravRef (goEntry d leaf ds) (goEntry d leaf' ds) := by
  induction ds with
  | nil =>
    intro pi inner c pay
    rw [goEntry_nil, goEntry_nil]
    exact hl pi inner c pay
  | cons s ds ih =>
    intro pi
    induction pi with
    | nil =>
      intro inner c pay
      rw [goEntry, goEntry]
      exact (Ref.refl _).bind fun is => (Ref.forEach is fun i => (Ref.refl _).bind fun p => ih _ _ _ _).bind fun l => Ref.refl _
    | cons p rest ihp =>
      intro inner c pay
      cases p with
      | slice x y z =>
        rw [goEntry, goEntry]
        exact (Ref.refl _).bind fun is => (Ref.forEach is fun i => (Ref.refl _).bind fun p => ih _ _ _ _).bind fun l => Ref.refl _
      | int i =>
        rw [goEntry_int, goEntry_int]
        exact ih _ _ _ _
      | list l =>
        rw [goEntry, goEntry]
        refine (Ref.forEach l fun i => (Ref.refl _).bind fun p => ?_).bind fun l => Ref.refl _
        cases i with
        | str => exact Ref.refl _
        | int i => exact ih _ _ _ _
      | nesteddict =>
        rw [goEntry, goEntry]
        exact (Ref.forEach _ fun i => (Ref.refl _).bind fun p => ih _ _ _ _).bind fun l => Ref.refl _
      | fn f =>
        rw [goEntry, goEntry]
        exact (ihp true c pay).bind fun r => Ref.refl _
      | str => rw [goEntry, goEntry] <;> first | exact Ref.refl _ | (intros; contradiction)
      | ellipsis => rw [goEntry, goEntry] <;> first | exact Ref.refl _ | (intros; contradiction)
      | dict => rw [goEntry, goEntry] <;> first | exact Ref.refl _ | (intros; contradiction)
      | set => rw [goEntry, goEntry] <;> first | exact Ref.refl _ | (intros; contradiction)
      | indexf => rw [goEntry, goEntry] <;> first | exact Ref.refl _ | (intros; contradiction)
      | index => rw [goEntry, goEntry] <;> first | exact Ref.refl _ | (intros; contradiction)
      | mat => rw [goEntry, goEntry] <;> first | exact Ref.refl _ | (intros; contradiction)

/-- The same for the traversals of the entries, by name. -/
abbrev TableRef : List (String × Trav σ V F R) → List (String × Trav σ V F R) → Prop :=
  List.Forall₂ fun x y => x.1 = y.1 ∧ TravRef x.2 y.2

theorem table_find_ref {l l' : List (String × Trav σ V F R)} (h : TableRef l l') (k : String) : TravRef
      (fun pi inner c pay => match l.reverse.find? (·.1 = k) with
        | some t => t.2 pi inner c pay
        | none => M.throw .generic)
      (fun pi inner c pay => match l'.reverse.find? (·.1 = k) with
        | some t => t.2 pi inner c pay
        | none => M.throw .generic) := by
  have key : ∀ {l l' : List (String × Trav σ V F R)}, TableRef l l' →
      (l.find? (·.1 = k) = none ∧ l'.find? (·.1 = k) = none) ∨
      ∃ t t', l.find? (·.1 = k) = some t ∧ l'.find? (·.1 = k) = some t' ∧ TravRef t.2 t'.2 := by
    intro l l' h
    induction h with
    | nil => exact .inl ⟨rfl, rfl⟩
    | @cons x y l l' hxy _ ih =>
      by_cases hk : x.1 = k
      · refine .inr ⟨x, y, ?_, ?_, hxy.2⟩
        · rw [List.find?_cons_of_pos (by simpa using hk)]
        · rw [List.find?_cons_of_pos (by simpa [← hxy.1] using hk)]
      · rw [List.find?_cons_of_neg (by simpa using hk), List.find?_cons_of_neg (by simpa [← hxy.1] using hk)]
        exact ih
  have hr : TableRef l.reverse l'.reverse := List.rel_reverse h
  intro pi inner c pay
  rcases key hr with ⟨h1, h2⟩ | ⟨t, t', h1, h2, h3⟩
  · rw [h1, h2]; exact Ref.refl _
  · rw [h1, h2]; exact h3 pi inner c pay

theorem goStruct_ref (keys : List String) {l l' : List (String × Trav σ V F R)} (ht : TableRef l l') (pi : List (PIdx F)) :
    ∀ (inner : Bool) (c : CIdx) (pay : Pay V), Ref (goStruct d keys l pi inner c pay) (goStruct d keys l' pi inner c pay) := by
  induction pi with
  | nil =>
    intro inner c pay
    rw [goStruct, goStruct]
    exact Ref.refl _
  | cons p rest ih =>
    intro inner c pay
    have hent := fun (k : String) pi inner c pay => table_find_ref ht k pi inner c pay
    have hitems : ∀ (items : List (String × Pay V)) (pi : List (PIdx F)), Ref
        (M.bind (M.forEach items fun kv =>
          M.bind (match l.reverse.find? (·.1 = kv.1) with
            | some t => t.2 pi inner (c ++ [.str kv.1]) kv.2
            | none => M.throw .generic) fun r => M.pure (kv.1, r)) fun r => M.pure (Tree.dict r))
        (M.bind (M.forEach items fun kv =>
          M.bind (match l'.reverse.find? (·.1 = kv.1) with
            | some t => t.2 pi inner (c ++ [.str kv.1]) kv.2
            | none => M.throw .generic) fun r => M.pure (kv.1, r)) fun r => M.pure (.dict r)) := by
      intro items pi
      exact (Ref.forEach items fun kv => (hent kv.1 pi inner _ kv.2).bind fun r => Ref.refl _).bind fun l => Ref.refl _
    have htab : ∀ (pi : List (PIdx F)), Ref
        (M.bind (M.forEach l fun kt => M.bind (kt.2 pi inner (c ++ [.str kt.1]) pay) fun r => M.pure (kt.1, r))
          fun r => M.pure (Tree.dict r))
        (M.bind (M.forEach l' fun kt => M.bind (kt.2 pi inner (c ++ [.str kt.1]) pay) fun r => M.pure (kt.1, r))
          fun r => M.pure (.dict r)) := by
      intro pi
      refine (Ref.forEach₂ ht fun x y hxy => ?_).bind fun l => Ref.refl _
      rw [hxy.1]
      exact (hxy.2 pi inner _ pay).bind fun r => Ref.refl _
    cases p with
    | str k =>
      rw [goStruct, goStruct]
      exact hent k rest inner _ pay
    | ellipsis =>
      rw [goStruct, goStruct]
      exact (Ref.forEach _ fun ki : String × ℕ => (Ref.refl _).bind fun p => hent ki.1 rest inner _ p).bind fun l => Ref.refl _
    | dict =>
      cases pay with
      | dict items => rw [goStruct, goStruct]; exact hitems items rest
      | _ => rw [goStruct, goStruct] <;> first | exact htab rest | (intros; contradiction)
    | nesteddict =>
      cases pay with
      | dict items => rw [goStruct, goStruct]; exact hitems items [.nesteddict]
      | _ => rw [goStruct, goStruct] <;> first | exact htab [.nesteddict] | (intros; contradiction)
    | set ks =>
      have hks : Ref
          (M.bind (M.forEach ks fun k =>
            M.bind (match l.reverse.find? (·.1 = k) with
              | some t => t.2 rest inner (c ++ [.str k]) pay
              | none => M.throw .generic) fun r => M.pure (k, r)) fun r => M.pure (Tree.dict r))
          (M.bind (M.forEach ks fun k =>
            M.bind (match l'.reverse.find? (·.1 = k) with
              | some t => t.2 rest inner (c ++ [.str k]) pay
              | none => M.throw .generic) fun r => M.pure (k, r)) fun r => M.pure (.dict r)) :=
        (Ref.forEach ks fun k => (hent k rest inner _ pay).bind fun r => Ref.refl _).bind fun l => Ref.refl _
      cases pay with
      | dict items => rw [goStruct, goStruct]; exact hitems _ rest
      | _ => rw [goStruct, goStruct] <;> first | exact hks | (intros; contradiction)
    | list ks =>
      rw [goStruct, goStruct]
      exact (Ref.forEach _ fun si => (Ref.refl _).bind fun p => ih inner _ p).bind fun l => Ref.refl _
    | fn f =>
      rw [goStruct, goStruct]
      exact (ih true c pay).bind fun r => Ref.refl _
    | int => rw [goStruct, goStruct] <;> first | exact Ref.refl _ | (intros; contradiction)
    | slice => rw [goStruct, goStruct] <;> first | exact Ref.refl _ | (intros; contradiction)
    | indexf => rw [goStruct, goStruct] <;> first | exact Ref.refl _ | (intros; contradiction)
    | index => rw [goStruct, goStruct] <;> first | exact Ref.refl _ | (intros; contradiction)
    | mat => rw [goStruct, goStruct] <;> first | exact Ref.refl _ | (intros; contradiction)

mutual
theorem leafTrav_ref (h : ∀ i pay c x p, Ref (d.call i pay c x (some p.strip)) (d.call i pay c x (some p))) :
    ∀ e : Entry, TravRef (Entry.leafTrav d e.strip) (Entry.leafTrav d e)
  | .prim n ds p => by
    intro pi inner c pay
    rw [Entry.strip, Entry.leafTrav, Entry.leafTrav]
    exact (h _ _ _ _ _).bind fun r => Ref.refl _
  | .nested n ds es o => by
    intro pi inner c pay
    rw [Entry.strip, Entry.leafTrav, Entry.leafTrav]
    cases pi with
    | nil => exact Ref.refl _
    | cons p rest => exact goStruct_ref _ (travTable_ref h es) (p :: rest) inner c pay
theorem travTable_ref (h : ∀ i pay c x p, Ref (d.call i pay c x (some p.strip)) (d.call i pay c x (some p))) :
    ∀ es : List Entry, TableRef (travTable d (stripAll es)) (travTable d es)
  | [] => by rw [stripAll]; exact .nil
  | e :: es => by
    rw [stripAll, travTable, travTable, Entry.strip_name, Entry.strip_dims]
    exact .cons ⟨rfl, goEntry_ref (leafTrav_ref h e) e.dims⟩ (travTable_ref h es)
end

/-! ## Entries that behave the same -/

variable {E : Prim → Prop}

mutual
theorem leafTrav_strip_of (h : ∀ i pay c x p, E p → d.call i pay c x (some p.strip) = d.call i pay c x (some p)) :
    ∀ e : Entry, e.Prims E → Entry.leafTrav d e.strip = Entry.leafTrav d e
  | .prim n ds p, he => by
    rw [Entry.strip, Entry.leafTrav, Entry.leafTrav]
    funext pi inner c pay
    rw [h _ _ _ _ _ he]
  | .nested n ds es o, he => by
    rw [Entry.strip]
    funext pi inner c pay
    rw [Entry.leafTrav, Entry.leafTrav, travTable_strip_of h es he]
theorem travTable_strip_of (h : ∀ i pay c x p, E p → d.call i pay c x (some p.strip) = d.call i pay c x (some p)) :
    ∀ es : List Entry, Prims E es → travTable d (stripAll es) = travTable d es
  | [], _ => by rw [stripAll]
  | e :: es, he => by
    rw [stripAll, travTable, travTable, Entry.strip_name, Entry.strip_dims, leafTrav_strip_of h e he.1,
      travTable_strip_of h es he.2]
end

end

/-! ## Writing -/

section
variable {V : Type} [Zero V]

theorem imCall_strip (map : List (CIdx × IMat)) (c : CIdx) (x : Option (List (PIdx (PyFn V)))) (p : Prim) :
    imCall applyIdx map c x (some p.strip) = imCall applyIdx map c x (some p) := by
  simp only [imCall, performExtraIndex_strip]

/-- Writing to an entry of another type than 'symm' does not need `originalsparsity`. -/
theorem setCall_strip (map : List (CIdx × IMat)) (pay : Pay V) (c : CIdx) (x : Option (List (PIdx (PyFn V)))) (p : Prim)
    (hp : p.symm = false) : setCall map pay c x (some p.strip) = setCall map pay c x (some p) := by
  obtain ⟨sp, sy, og, ss⟩ := p
  simp only at hp
  subst hp
  have h := fun i b y => performExtraIndex_strip (applyIdx (V := V)) i ⟨sp, false, og, ss⟩ b y
  simp only [Prim.strip] at h ⊢
  unfold setCall
  simp only [h]
  rfl

/-- Writing to any entry does the same without `originalsparsity`, if it succeeds. -/
theorem setCall_strip_ref (map : List (CIdx × IMat)) (pay : Pay V) (c : CIdx) (x : Option (List (PIdx (PyFn V)))) (p : Prim) :
    Ref (setCall map pay c x (some p.strip)) (setCall map pay c x (some p)) := by
  rcases hp : p.symm with _ | _
  · rw [setCall_strip _ _ _ _ _ hp]
    exact Ref.refl _
  · obtain ⟨sp, sy, og, ss⟩ := p
    simp only at hp
    subst hp
    have h := fun i b y => performExtraIndex_strip (applyIdx (V := V)) i ⟨sp, true, og, ss⟩ b y
    simp only [Prim.strip] at h ⊢
    intro s a u hs
    unfold setCall at hs ⊢
    simp only [h] at hs
    cases hm : pay.toMat with
    | error e => rw [hm] at hs; cases hs
    | ok m =>
      rw [hm] at hs
      simp only at hs ⊢
      cases hg : dictGet map c with
      | none => rw [hg] at hs; cases hs
      | some idx =>
        rw [hg] at hs
        simp only at hs ⊢
        cases hi : performExtraIndex applyIdx idx (some ⟨sp, true, og, ss⟩) false (x.getD []) with
        | error e => rw [hi] at hs; cases hs
        | ok i =>
          rw [hi] at hs
          simp only at hs ⊢
          cases hf : performExtraIndex applyIdx idx (some ⟨sp, true, og, ss⟩) true (x.getD []) with
          | error e => rw [hf] at hs; cases hs
          | ok iflip =>
            rw [hf] at hs
            simp only at hs ⊢
            by_cases hsc : m.isScalar = true
            · rw [if_pos hsc] at hs ⊢
              exact hs
            · rw [if_neg hsc] at hs
              cases hs

theorem setDisp_strip (map : List (CIdx × IMat)) (inner : Bool) (pay : Pay V) (c : CIdx) (x : Option (List (PIdx (PyFn V))))
    (p : Prim) (hp : p.symm = false) :
    (setDisp map).call inner pay c x (some p.strip) = (setDisp map).call inner pay c x (some p) := by
  simp only [setDisp, imCall_strip, setCall_strip _ _ _ _ _ hp]

theorem setDisp_strip_ref (map : List (CIdx × IMat)) (inner : Bool) (pay : Pay V) (c : CIdx) (x : Option (List (PIdx (PyFn V))))
    (p : Prim) : Ref ((setDisp map).call inner pay c x (some p.strip)) ((setDisp map).call inner pay c x (some p)) := by
  simp only [setDisp, imCall_strip]
  split
  · exact Ref.refl _
  · exact (setCall_strip_ref map pay c x p).bind fun _ => Ref.refl _

/-- The restored struct. -/
def CS.restored (c : CS) : CS := { c with struct := ⟨stripAll c.struct.entries, c.struct.order⟩ }

theorem setitem_strip (c : CS) (hs : Prims (fun p => p.symm = false) c.struct.entries) (master : List V)
    (pi : List (PIdx (PyFn V))) (v : Pay V) :
    (⟨c.restored, master, []⟩ : Obj V).setitem pi v = (((⟨c, master, []⟩ : Obj V).setitem pi v).1,
      ⟨c.restored, ((⟨c, master, []⟩ : Obj V).setitem pi v).2.master, []⟩) := by
  have : c.restored.struct.traverse (setDisp (V := V) c.map) = c.struct.traverse (setDisp c.map) := by
    funext pi pay s
    rw [Struct.traverse_fst, Struct.traverse_fst]
    have h : travTable (setDisp (V := V) c.map) c.restored.struct.entries = travTable (setDisp c.map) c.struct.entries :=
      travTable_strip_of (fun i pay c' x p hp => setDisp_strip c.map i pay c' x p hp) _ hs
    rw [h]
    rfl
  rw [Obj.setitem, Obj.setitem]
  simp only
  show (match c.restored.struct.traverse (setDisp c.map) pi v master with
    | (.ok _, master) => _
    | (.error e, master) => _) = _
  rw [this]
  rcases c.struct.traverse (setDisp c.map) pi v master with ⟨_ | _, _⟩ <;> rfl

theorem setitem_strip_ref (c : CS) (master : List V) (pi : List (PIdx (PyFn V))) (v : Pay V)
    (h : ((⟨c.restored, master, []⟩ : Obj V).setitem pi v).1 = .ok ()) :
    ((⟨c, master, []⟩ : Obj V).setitem pi v) = (.ok (), ⟨c, ((⟨c.restored, master, []⟩ : Obj V).setitem pi v).2.master, []⟩) := by
  have key : Ref (c.restored.struct.traverse (setDisp (V := V) c.map) pi v) (c.struct.traverse (setDisp c.map) pi v) := by
    intro s a u hs
    rw [Struct.traverse_fst] at hs ⊢
    rcases hg : goStruct (setDisp c.map) c.restored.struct.keys (travTable (setDisp c.map) c.restored.struct.entries) pi false [] v s
      with ⟨r, w⟩
    rw [hg] at hs
    cases r with
    | error e => cases hs
    | ok b =>
      have := goStruct_ref (d := setDisp c.map) c.struct.keys
        (travTable_ref (fun i pay c' x p => setDisp_strip_ref c.map i pay c' x p) c.struct.entries) pi false [] v s b w hg
      rw [this]
      exact hs
  rw [Obj.setitem] at h ⊢
  rw [Obj.setitem]
  simp only at h ⊢
  change (match c.restored.struct.traverse (setDisp c.map) pi v master with
    | (.ok _, master) => ((.ok () : Except PyErr Unit), (⟨c.restored, master, []⟩ : Obj V))
    | (.error e, master) => (.error e, ⟨c.restored, master, []⟩)).1 = _ at h
  change _ = (_, (⟨c, (match c.restored.struct.traverse (setDisp c.map) pi v master with
    | (.ok _, master) => ((.ok () : Except PyErr Unit), (⟨c.restored, master, []⟩ : Obj V))
    | (.error e, master) => (.error e, ⟨c.restored, master, []⟩)).2.master, []⟩ : Obj V))
  rcases ht : c.restored.struct.traverse (setDisp c.map) pi v master with ⟨r, w⟩
  rw [ht] at h
  cases r with
  | error e => cases h
  | ok b => rw [key master b w ht]

end

end CE.St
