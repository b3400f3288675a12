import Verif.Struct.LemLens

/-! # What an assignment can change

The positions that an assignment writes, successfully or not and for any value, are among those of the index matrices that the same
power index without its callables reads. -/

namespace CE.St

variable {V : Type}

section
variable {F : Type}

/-- A power index without its callables. -/
def noFns (pi : List (PIdx F)) : List (PIdx F) := pi.filter fun p => !p.isFn

theorem noFns_fn (f : F) (pi : List (PIdx F)) : noFns (.fn f :: pi) = noFns pi := rfl

theorem noFns_cons {p : PIdx F} (h : ∀ f, p ≠ .fn f) (pi : List (PIdx F)) : noFns (p :: pi) = p :: noFns pi := by
  cases p with
  | fn f => exact (h f rfl).elim
  | _ => rfl

theorem noFns_alls (ds : List ℕ) : noFns (ds.map fun _ => (PIdx.all : PIdx F)) = ds.map fun _ => .all := by
  induction ds with
  | nil => rfl
  | cons d ds ih => rw [List.map_cons, noFns_cons (by rintro f ⟨⟩), ih]

theorem noFns_nested : noFns [(PIdx.nesteddict : PIdx F)] = [.nesteddict] := rfl

end

theorem performExtraIndex_noFns {i : IMat} {entry : Option Prim} {flip : Bool} (x : List (PIdx (PyFn V))) :
    Fns PyFn.Rearranges x → ∀ {P : ℕ → Prop} {i' r : IMat}, performExtraIndex applyIdx i entry flip (noFns x) = .ok i' →
    (∀ k ∈ i'.data, P k) → performExtraIndex applyIdx i entry flip x = .ok r → ∀ k ∈ r.data, P k := by
  fun_induction performExtraIndex applyIdx i entry flip x with
  | case1 => rintro _ P i' r ⟨⟩ hP ⟨⟩; exact hP
  | case2 f rest ih =>
    intro hf P i' r h hP hr
    rw [noFns_fn] at h
    cases h1 : performExtraIndex applyIdx i entry flip rest with
    | error e => rw [h1] at hr; cases hr
    | ok r1 =>
      rw [h1] at hr
      exact hf.head.mem (t := .leaf r1) (ih hf.tail h hP h1) hr
  | case3 rest =>
    intro _ P i' r h hP hr
    cases hr
    rw [noFns_cons (by rintro f ⟨⟩), performExtraIndex] at h
    cases h
    exact hP
  | case4 a h1 h2 =>
    intro _ P i' r h hP hr
    rw [noFns_cons h1] at h
    have : performExtraIndex applyIdx i entry flip [a] = (delegation a entry 0).bind fun a => getLin i a := by
      rw [performExtraIndex] <;> assumption
    change performExtraIndex applyIdx i entry flip [a] = _ at h
    rw [this, hr] at h
    cases h
    exact hP
  | case5 a b h1 h2 =>
    intro _ P i' r h hP hr
    rw [noFns_cons h1] at h
    have e : performExtraIndex applyIdx i entry flip [a, b] = (delegation a entry 0).bind fun a => (delegation b entry 1).bind fun b =>
        if flip then getRC i b a else getRC i a b := by
      rw [performExtraIndex] <;> assumption
    by_cases hb : ∃ f, b = .fn f
    · obtain ⟨f, rfl⟩ := hb
      exfalso
      cases ha : delegation a entry 0 with
      | error e => rw [ha] at hr; cases hr
      | ok a' =>
        rw [ha] at hr
        simp only [Except.bind, delegation] at hr
        split at hr
        · unfold getRC at hr
          simp only [selIdx] at hr
          cases hr
        · unfold getRC at hr
          cases hs : selIdx i.sp.rows a' with
          | error e => rw [hs] at hr; cases hr
          | ok l => rw [hs] at hr; cases hr
    · rw [noFns_cons (fun f hf => hb ⟨f, hf⟩)] at h
      change performExtraIndex applyIdx i entry flip [a, b] = _ at h
      rw [e, hr] at h
      cases h
      exact hP
  | case6 => rintro _ P i' r _ _ ⟨⟩

section
variable {α β : Type} {P : ℕ → Prop}

/-- Only positions in `P` change, and the result satisfies `Q`. -/
def Keeps (P : ℕ → Prop) (Q : β → Prop) (y : M (List V) β) : Prop :=
  ∀ m, (∀ k, ¬ P k → (y m).2[k]? = m[k]?) ∧ ∀ r, (y m).1 = .ok r → Q r

theorem Keeps.pure {Q : β → Prop} {b : β} (h : Q b) : Keeps (V := V) P Q (M.pure b) :=
  fun _ => ⟨fun _ _ => rfl, by rintro _ ⟨⟩; exact h⟩

theorem Keeps.throw {Q : β → Prop} (e : PyErr) : Keeps (V := V) P Q (M.throw e) := fun _ => ⟨fun _ _ => rfl, by rintro _ ⟨⟩⟩

theorem Keeps.ex {Q : β → Prop} {x : Except PyErr β} (h : ∀ b, x = .ok b → Q b) : Keeps (V := V) P Q (St.ex x) :=
  fun _ => ⟨fun _ _ => rfl, h⟩

theorem Keeps.bind {Q : α → Prop} {Q' : β → Prop} {y : M (List V) α} {g : α → M (List V) β} (h : Keeps P Q y)
    (hg : ∀ a, Q a → Keeps P Q' (g a)) : Keeps P Q' (M.bind y g) := by
  intro m
  obtain ⟨h1, h2⟩ := h m
  simp only [M.bind]
  rcases hy : y m with ⟨r, u⟩
  rw [hy] at h1 h2
  cases r with
  | error e => exact ⟨h1, by rintro _ ⟨⟩⟩
  | ok a =>
    obtain ⟨h3, h4⟩ := hg a (h2 a rfl) u
    exact ⟨fun k hk => (h3 k hk).trans (h1 k hk), h4⟩

theorem Keeps.forEach {Q : β → Prop} {l : List α} {g : α → M (List V) β} (h : ∀ a ∈ l, Keeps P Q (g a)) :
    Keeps P (fun rs => ∀ r ∈ rs, Q r) (M.forEach l g) := by
  induction l with
  | nil => exact Keeps.pure (by rintro r ⟨⟩)
  | cons a l ih =>
    rw [M.forEach]
    refine (h a List.mem_cons_self).bind fun b hb => (ih fun a ha => h a (List.mem_cons_of_mem _ ha)).bind fun bs hbs =>
      Keeps.pure ?_
    intro r hr
    rcases List.mem_cons.1 hr with rfl | hr
    · exact hb
    · exact hbs r hr

end

/-- The positions of the index matrices are in `P`. -/
abbrev Inside (P : ℕ → Prop) (i : IMat) : Prop := ∀ k ∈ i.data, P k

/-- The positions of the index matrices that are there are in `P`. -/
abbrev InsideO (P : ℕ → Prop) (t : Tree (Option IMat)) : Prop := t.All fun o => ∀ i, o = some i → Inside P i

mutual
theorem Tree.All.imp {α : Type} {P Q : α → Prop} (h : ∀ a, P a → Q a) : ∀ {t : Tree α}, t.All P → t.All Q
  | .leaf a, ht => h a ht
  | .list _, ht => Tree.All.imp_goList h ht
  | .dict _, ht => Tree.All.imp_goDict h ht
theorem Tree.All.imp_goList {α : Type} {P Q : α → Prop} (h : ∀ a, P a → Q a) : ∀ {l : List (Tree α)}, Tree.All.goList P l →
    Tree.All.goList Q l
  | [], _ => trivial
  | _ :: _, ht => ⟨Tree.All.imp h ht.1, Tree.All.imp_goList h ht.2⟩
theorem Tree.All.imp_goDict {α : Type} {P Q : α → Prop} (h : ∀ a, P a → Q a) : ∀ {l : List (String × Tree α)}, Tree.All.goDict P l →
    Tree.All.goDict Q l
  | [], _ => trivial
  | (_, _) :: _, ht => ⟨Tree.All.imp h ht.1, Tree.All.imp_goDict h ht.2⟩
end

theorem all_list {α : Type} {Q : α → Prop} {l : List (Tree α)} : (Tree.list l).All Q ↔ ∀ t ∈ l, t.All Q := by
  rw [Tree.All]
  induction l with
  | nil => simp [Tree.All.goList, Tree.All.goDict]
  | cons t l ih =>
    rw [Tree.All.goList, ih]
    simp

theorem all_dict {α : Type} {Q : α → Prop} {l : List (String × Tree α)} : (Tree.dict l).All Q ↔ ∀ t ∈ l, t.2.All Q := by
  rw [Tree.All]
  induction l with
  | nil => simp [Tree.All.goList, Tree.All.goDict]
  | cons t l ih =>
    obtain ⟨k, t⟩ := t
    rw [Tree.All.goDict, ih]
    simp

/-- What is written are positions that are read. -/
def Touch (x : M Unit (Tree IMat)) (y : M (List V) (Tree (Option IMat))) : Prop :=
  ∀ ti, (x ()).1 = .ok ti → ∀ P : ℕ → Prop, ti.All (Inside P) → Keeps P (InsideO P) y

theorem Touch.throw (x : M Unit (Tree IMat)) (e : PyErr) : Touch (V := V) x (M.throw e) := fun _ _ _ _ => Keeps.throw e

theorem Touch.error (e : PyErr) (y : M (List V) (Tree (Option IMat))) : Touch (M.throw e) y := by rintro _ ⟨⟩

theorem forEach_unit_mem {α β : Type} {l : List α} {f : α → M Unit β} : ∀ {rs}, (M.forEach l f ()).1 = .ok rs → ∀ a ∈ l,
    ∃ r ∈ rs, (f a ()).1 = .ok r := by
  induction l with
  | nil => rintro rs _ a ⟨⟩
  | cons b l ih =>
    intro rs h a ha
    obtain ⟨r, rs', rfl, h1, h2⟩ := forEach_unit_cons h
    rcases List.mem_cons.1 ha with rfl | ha
    · exact ⟨r, List.mem_cons_self, h1⟩
    · obtain ⟨r', hr', h3⟩ := ih h2 a ha
      exact ⟨r', List.mem_cons_of_mem _ hr', h3⟩

/-- Loops that make lists. -/
theorem Touch.list {γ δ : Type} {l : List γ} {l' : List δ} {f : γ → M Unit (Tree IMat)} {g : δ → M (List V) (Tree (Option IMat))}
    (h : ∀ b ∈ l', ∃ a ∈ l, Touch (f a) (g b)) :
    Touch (M.bind (M.forEach l f) fun r => M.pure (.list r)) (M.bind (M.forEach l' g) fun r => M.pure (.list r)) := by
  intro ti hti P hP
  obtain ⟨ts, h1, rfl⟩ := bind_pure_ok hti
  rw [all_list] at hP
  refine (Keeps.forEach (Q := InsideO P) fun b hb => ?_).bind fun rs hrs => Keeps.pure (all_list.2 hrs)
  obtain ⟨a, ha, hab⟩ := h b hb
  obtain ⟨t, ht, h2⟩ := forEach_unit_mem h1 a ha
  exact hab t h2 P (hP t ht)

/-- Loops that make dicts. -/
theorem Touch.dict {γ δ : Type} {l : List γ} {l' : List δ} {nm : γ → String} {nm' : δ → String} {f : γ → M Unit (Tree IMat)}
    {g : δ → M (List V) (Tree (Option IMat))} (h : ∀ b ∈ l', (∃ a ∈ l, Touch (f a) (g b)) ∨ ∃ e, g b = M.throw e) :
    Touch (M.bind (M.forEach l fun a => M.bind (f a) fun r => M.pure (nm a, r)) fun r => M.pure (.dict r))
      (M.bind (M.forEach l' fun b => M.bind (g b) fun r => M.pure (nm' b, r)) fun r => M.pure (.dict r)) := by
  intro ti hti P hP
  obtain ⟨ts, h1, rfl⟩ := bind_pure_ok hti
  rw [all_dict] at hP
  refine (Keeps.forEach (Q := fun x : String × Tree (Option IMat) => InsideO P x.2) fun b hb => ?_).bind fun rs hrs =>
    Keeps.pure (all_dict.2 hrs)
  have : Keeps P (InsideO P) (g b) := by
    rcases h b hb with ⟨a, ha, hab⟩ | ⟨e, he⟩
    · obtain ⟨t, ht, h2⟩ := forEach_unit_mem h1 a ha
      obtain ⟨t', h3, rfl⟩ := bind_pure_ok h2
      exact hab t' h3 P (hP _ ht)
    · rw [he]
      exact Keeps.throw e
  exact this.bind fun r hr => Keeps.pure hr

/-- A part of the payload. -/
theorem Touch.unpack {x : M Unit (Tree IMat)} {pay : Pay V} {k : Key} {g : Pay V → M (List V) (Tree (Option IMat))}
    (h : ∀ q, Touch x (g q)) : Touch x (M.bind (ex (payloadUnpack pay k)) g) := by
  intro ti hti P hP
  exact (Keeps.ex (Q := fun _ => True) fun _ _ => trivial).bind fun q _ => h q ti hti P hP

/-- Traversals. -/
def TouchTrav (t : Trav Unit V (PyFn V) IMat) (t' : Trav (List V) V (PyFn V) (Option IMat)) : Prop :=
  ∀ pi inner c pay, Fns PyFn.Rearranges pi → Touch (t (noFns pi) false c .none) (t' pi inner c pay)

theorem goEntry_touch {d : Disp Unit V (PyFn V) IMat} {d' : Disp (List V) V (PyFn V) (Option IMat)}
    (ho : ∀ {P : ℕ → Prop} inner f pay c r, f.Rearranges → InsideO P r → Keeps P (InsideO P) (d'.outer inner f pay c r))
    {leaf : Trav Unit V (PyFn V) IMat} {leaf' : Trav (List V) V (PyFn V) (Option IMat)} (hl : TouchTrav leaf leaf') (ds : List ℕ) :
    TouchTrav (goEntry d leaf ds) (goEntry d' leaf' ds) := by
  induction ds with
  | nil =>
    intro pi inner c pay hf
    rw [goEntry_nil, goEntry_nil]
    exact hl pi inner c pay hf
  | cons s ds ih =>
    intro pi
    induction pi with
    | nil =>
      intro inner c pay hf
      change Touch (goEntry d leaf (s :: ds) [] false c .none) _
      rw [goEntry, goEntry, sliceList_all]
      refine Touch.list (l := (List.range s).map fun i : ℕ => (i : ℤ)) fun i hi => ⟨i, hi, Touch.unpack fun q => ?_⟩
      have := ih (ds.map fun _ => .all) inner (c ++ [.int (canonical i s)]) q (Fns.alls _)
      rwa [noFns_alls] at this
    | cons p rest ihp =>
      intro inner c pay hf
      cases p with
      | slice a b st =>
        rw [noFns_cons (by rintro f ⟨⟩), goEntry, goEntry]
        cases hs : sliceList a b st s with
        | error e => rintro ti ⟨⟩
        | ok is => exact Touch.list (l := is) fun i hi => ⟨i, hi, Touch.unpack fun q => ih _ _ _ _ hf.tail⟩
      | int i =>
        rw [noFns_cons (by rintro f ⟨⟩), goEntry_int, goEntry_int]
        exact ih _ _ _ _ hf.tail
      | list l =>
        rw [noFns_cons (by rintro f ⟨⟩), goEntry, goEntry]
        refine Touch.list (l := l) fun i hi => ⟨i, hi, Touch.unpack fun q => ?_⟩
        cases i with
        | str k => exact Touch.throw _ _
        | int i => exact ih _ _ _ _ hf.tail
      | nesteddict =>
        rw [noFns_cons (by rintro f ⟨⟩), goEntry, goEntry]
        exact Touch.list (l := List.range s) fun i hi => ⟨i, hi, Touch.unpack fun q => ih _ _ _ _ Fns.nested⟩
      | fn f =>
        have e : goEntry d' leaf' (s :: ds) (.fn f :: rest) inner c pay =
            M.bind (goEntry d' leaf' (s :: ds) rest true c pay) fun r => d'.outer inner f pay c r := by rw [goEntry]
        rw [noFns_fn, e]
        intro ti hti P hP
        exact (ihp true c pay hf.tail ti hti P hP).bind fun r hr => ho _ _ _ _ _ hf.head hr
      | str => rw [noFns_cons (by rintro f ⟨⟩), goEntry] <;> first | exact Touch.error _ _ | (intros; contradiction)
      | ellipsis => rw [noFns_cons (by rintro f ⟨⟩), goEntry] <;> first | exact Touch.error _ _ | (intros; contradiction)
      | dict => rw [noFns_cons (by rintro f ⟨⟩), goEntry] <;> first | exact Touch.error _ _ | (intros; contradiction)
      | set => rw [noFns_cons (by rintro f ⟨⟩), goEntry] <;> first | exact Touch.error _ _ | (intros; contradiction)
      | indexf => rw [noFns_cons (by rintro f ⟨⟩), goEntry] <;> first | exact Touch.error _ _ | (intros; contradiction)
      | index => rw [noFns_cons (by rintro f ⟨⟩), goEntry] <;> first | exact Touch.error _ _ | (intros; contradiction)
      | mat => rw [noFns_cons (by rintro f ⟨⟩), goEntry] <;> first | exact Touch.error _ _ | (intros; contradiction)

theorem goStruct_touch {d : Disp Unit V (PyFn V) IMat} {d' : Disp (List V) V (PyFn V) (Option IMat)} {es : List Entry}
    (hn : (es.map Entry.name).Nodup) (keys : List String)
    (hes : ∀ e ∈ es, TouchTrav (goEntry d (Entry.leafTrav d e) e.dims) (goEntry d' (Entry.leafTrav d' e) e.dims))
    (ho : ∀ {P : ℕ → Prop} inner f pay c r, f.Rearranges → InsideO P r → Keeps P (InsideO P) (d'.outer inner f pay c r))
    (hcall : ∀ inner c pay, Touch (M.bind (d.call false .none c none none) fun r => M.pure (.leaf r))
      (M.bind (d'.call inner pay c none none) fun r => M.pure (Tree.leaf r))) :
    TouchTrav (goStruct d keys (travTable d es)) (goStruct d' keys (travTable d' es)) := by
  have hent : ∀ k pi inner c pay, Fns PyFn.Rearranges pi →
      Touch (goStruct d keys (travTable d es) (.str k :: noFns pi) false c .none)
        (goStruct d' keys (travTable d' es) (.str k :: pi) inner c pay) := by
    intro k pi inner c pay hf
    rw [goStruct_str, goStruct_str]
    by_cases h : ∃ e ∈ es, e.name = k
    · obtain ⟨e, he, rfl⟩ := h
      rw [entryTrav_of_mem d hn he, entryTrav_of_mem d' hn he]
      exact hes e he pi inner _ pay hf
    · rw [entryTrav_none d (fun e he hk => h ⟨e, he, hk⟩)]
      exact Touch.error _ _
  have hitems : ∀ pi inner c (kv : String × Pay V), Fns PyFn.Rearranges pi →
      (∃ e ∈ es, Touch (goStruct d keys (travTable d es) (.str e.name :: noFns pi) false c .none)
        (goStruct d' keys (travTable d' es) (.str kv.1 :: pi) inner c kv.2)) ∨
      ∃ e, goStruct d' keys (travTable d' es) (.str kv.1 :: pi) inner c kv.2 = M.throw e := by
    intro pi inner c kv hf
    by_cases h : ∃ e ∈ es, e.name = kv.1
    · obtain ⟨e, he, hk⟩ := h
      refine Or.inl ⟨e, he, ?_⟩
      rw [hk]
      exact hent _ _ _ _ _ hf
    · refine Or.inr ⟨.generic, ?_⟩
      rw [goStruct_str, entryTrav_none d' (fun e he hk => h ⟨e, he, hk⟩)]
  intro pi
  induction pi with
  | nil =>
    intro inner c pay _
    change Touch (goStruct d keys (travTable d es) [] false c .none) _
    rw [goStruct, goStruct]
    exact hcall inner c pay
  | cons p rest ih =>
    intro inner c pay hf
    have hf' := hf.tail
    cases p with
    | str k => exact hent k rest inner c pay hf'
    | ellipsis =>
      rw [noFns_cons (by rintro f ⟨⟩), goStruct_ellipsis, goStruct_ellipsis]
      exact Touch.list (l := keys.zipIdx) fun ki hki => ⟨ki, hki, Touch.unpack fun q => hent _ _ _ _ _ hf'⟩
    | dict =>
      rw [noFns_cons (by rintro f ⟨⟩), goStruct_dict _ _ hn _ _ _ _ (by simp)]
      by_cases hp : ∃ items, pay = .dict items
      · obtain ⟨items, rfl⟩ := hp
        rw [goStruct_dict_items]
        exact Touch.dict fun kv _ => hitems rest inner c kv hf'
      · rw [goStruct_dict _ _ hn _ _ _ _ (fun items h => hp ⟨items, h⟩)]
        exact Touch.dict fun e he => Or.inl ⟨e, he, hent _ _ _ _ _ hf'⟩
    | nesteddict =>
      rw [noFns_cons (by rintro f ⟨⟩), goStruct_nested _ _ hn _ _ _ _ (by simp)]
      by_cases hp : ∃ items, pay = .dict items
      · obtain ⟨items, rfl⟩ := hp
        rw [goStruct_nested_items]
        exact Touch.dict fun kv _ => hitems [.nesteddict] inner c kv Fns.nested
      · rw [goStruct_nested _ _ hn _ _ _ _ (fun items h => hp ⟨items, h⟩)]
        exact Touch.dict fun e he => Or.inl ⟨e, he, hent e.name [.nesteddict] _ _ _ Fns.nested⟩
    | set ks =>
      rw [noFns_cons (by rintro f ⟨⟩), goStruct_set _ _ _ _ _ _ _ _ (by simp)]
      by_cases hp : ∃ items, pay = .dict items
      · obtain ⟨items, rfl⟩ := hp
        rw [goStruct_set_items]
        refine Touch.dict fun kv hkv => Or.inl ⟨kv.1, ?_, hent _ _ _ _ _ hf'⟩
        simpa using (List.mem_filter.1 hkv).2
      · rw [goStruct_set _ _ _ _ _ _ _ _ (fun items h => hp ⟨items, h⟩)]
        exact Touch.dict fun k hk => Or.inl ⟨k, hk, hent _ _ _ _ _ hf'⟩
    | list l =>
      rw [noFns_cons (by rintro f ⟨⟩), goStruct, goStruct]
      exact Touch.list (l := l.zipIdx) fun ki hki => ⟨ki, hki, Touch.unpack fun q => ih _ _ _ hf'⟩
    | fn f =>
      rw [noFns_fn]
      rw [goStruct.eq_def (d := d')]
      intro ti hti P hP
      exact (ih true c pay hf' ti hti P hP).bind fun r hr => ho _ _ _ _ _ hf.head hr
    | int => rw [noFns_cons (by rintro f ⟨⟩), goStruct] <;> first | exact Touch.error _ _ | (intros; contradiction)
    | slice => rw [noFns_cons (by rintro f ⟨⟩), goStruct] <;> first | exact Touch.error _ _ | (intros; contradiction)
    | indexf => rw [noFns_cons (by rintro f ⟨⟩), goStruct] <;> first | exact Touch.error _ _ | (intros; contradiction)
    | index => rw [noFns_cons (by rintro f ⟨⟩), goStruct] <;> first | exact Touch.error _ _ | (intros; contradiction)
    | mat => rw [noFns_cons (by rintro f ⟨⟩), goStruct] <;> first | exact Touch.error _ _ | (intros; contradiction)

variable [Zero V]

theorem assign_keeps {m u : List V} {i : IMat} {v : SMat V} {P : ℕ → Prop} (hi : Inside P i) (h : assign m i v = .ok u) :
    ∀ k, ¬ P k → u[k]? = m[k]? := (assign_frame (P := P) (m0 := m) ⟨rfl, fun _ _ => rfl⟩ hi h).2

theorem outer_keeps {map : List (CIdx × IMat)} {P : ℕ → Prop} (inner : Bool) {f : PyFn V} (hf : f.Rearranges) (pay : Pay V) (c : CIdx)
    {r : Tree (Option IMat)} (hr : InsideO P r) : Keeps P (InsideO P) ((setDispOn assign map).outer inner f pay c r) := by
  intro m
  have bad : ∀ e : PyErr, (∀ k, ¬ P k → ((.error e, m) : Except PyErr (Tree (Option IMat)) × List V).2[k]? = m[k]?) ∧
      ∀ r, ((.error e, m) : Except PyErr (Tree (Option IMat)) × List V).1 = .ok r → InsideO P r :=
    fun e => ⟨fun _ _ => rfl, by rintro _ ⟨⟩⟩
  simp only [setDispOn]
  cases ht : r.mapM' theIdx with
  | error e => exact bad e
  | ok t =>
    simp only
    cases hi : f.onIdx t with
    | error e => exact bad e
    | ok i =>
      have hm : Inside P i := hf.mem (mapM'_within (Q := Inside P) hr ht) hi
      simp only
      cases inner with
      | true => exact ⟨fun _ _ => rfl, by rintro _ ⟨⟩ _ ⟨⟩; exact hm⟩
      | false =>
        simp only [Bool.false_eq_true, if_false]
        cases pay.toMat with
        | error e => exact bad e
        | ok v =>
          simp only
          cases ha : assign m i v with
          | error e => exact bad e
          | ok u => exact ⟨assign_keeps hm ha, by rintro _ ⟨⟩ _ ⟨⟩⟩

/-- Writing at what an element's index matrix gives. -/
theorem call_touch {map : List (CIdx × IMat)} (inner : Bool) (c : CIdx) (x : Option (List (PIdx (PyFn V)))) (pi : List (PIdx (PyFn V)))
    (hx : x.getD [] = pi) (x' : Option (List (PIdx (PyFn V)))) (hx' : x'.getD [] = noFns pi) (hf : Fns PyFn.Rearranges pi)
    (e : Option Prim) (he : ∀ p, e = some p → p.symm = false) (pay : Pay V) :
    Touch (M.bind ((imDisp (V := V) map).call false .none c x' e) fun r => M.pure (.leaf r))
      (M.bind ((setDispOn assign map).call inner pay c x e) fun r => M.pure (Tree.leaf r)) := by
  intro ti hti P hP
  obtain ⟨i', h1, rfl⟩ := bind_pure_ok hti
  have h1 : imCall applyIdx map c x' e = .ok i' := h1
  have hP : Inside P i' := hP
  unfold imCall at h1
  cases hidx : dictGet map c with
  | none => rw [hidx] at h1; cases h1
  | some idx =>
    rw [hidx, hx'] at h1
    simp only at h1
    have key : ∀ {r}, performExtraIndex applyIdx idx e false pi = .ok r → Inside P r :=
      fun hr => performExtraIndex_noFns pi hf h1 hP hr
    refine Keeps.bind (Q := fun o => ∀ i, o = some i → Inside P i) ?_ fun o ho => Keeps.pure ho
    intro m
    simp only [setDispOn]
    cases inner with
    | true =>
      refine ⟨fun _ _ => rfl, ?_⟩
      intro o ho i hi
      subst hi
      have ho : (imCall applyIdx map c x e).map some = .ok (some i) := ho
      unfold imCall at ho
      rw [hidx, hx] at ho
      simp only at ho
      cases hr : performExtraIndex applyIdx idx e false pi with
      | error e => rw [hr] at ho; cases ho
      | ok r =>
        rw [hr] at ho
        cases ho
        exact key hr
    | false =>
      simp only [Bool.false_eq_true, if_false]
      have : Keeps (V := V) P (fun _ => True) (setCallOn assign map pay c x e) := by
        intro m
        refine ⟨fun k hk => ?_, fun _ _ => trivial⟩
        unfold setCallOn
        cases pay.toMat with
        | error e => rfl
        | ok v =>
          simp only [hidx, hx]
          cases hr : performExtraIndex applyIdx idx e false pi with
          | error e => rfl
          | ok i =>
            cases e with
            | none =>
              simp only
              cases ha : assign m i v with
              | error e => rfl
              | ok u => exact assign_keeps (key hr) ha k hk
            | some p =>
              obtain ⟨sp, sy, orig, ss⟩ := p
              have := he _ rfl
              simp only at this
              subst this
              simp only
              cases ha : assign m i v with
              | error e => rfl
              | ok u => exact assign_keeps (key hr) ha k hk
      exact this.bind (fun _ _ => Keeps.pure (by rintro i ⟨⟩)) m

mutual
theorem leafTrav_touch (map : List (CIdx × IMat)) : ∀ e : Entry, e.Prims (fun p => p.symm = false) →
    (∀ n ds es o, e = .nested n ds es o → WFs es o) →
    TouchTrav (Entry.leafTrav (imDisp (V := V) map) e) (Entry.leafTrav (setDispOn assign map) e)
  | .prim n ds p, hs, _ => by
    intro pi inner c pay hf
    rw [Entry.leafTrav, Entry.leafTrav]
    exact call_touch inner c _ pi (by cases pi <;> rfl) _ (by cases noFns pi <;> rfl) hf _ (by rintro _ ⟨⟩; exact hs) pay
  | .nested n ds es o, hs, hn => by
    intro pi inner c pay hf
    rw [Entry.leafTrav, Entry.leafTrav]
    have hw := hn n ds es o rfl
    have key := goStruct_touch (d := imDisp (V := V) map) (d' := setDispOn assign map) hw.nodup (o.flatMap OrderItem.names)
      (travTable_touch map es hs fun n ds es' o' he => hw.sub n ds es' o' he)
      (fun inner f pay c r hf hr => outer_keeps inner hf pay c hr)
      (fun inner c pay => call_touch inner c none [] rfl none rfl (by simp [Fns]) none (by rintro _ ⟨⟩) pay) pi inner c pay hf
    cases pi with
    | nil => exact call_touch inner c none [] rfl none rfl hf none (by rintro _ ⟨⟩) pay
    | cons p rest =>
      cases hq : noFns (p :: rest) with
      | nil =>
        rw [hq, goStruct] at key
        exact key
      | cons q qs =>
        rw [hq] at key
        exact key
theorem travTable_touch (map : List (CIdx × IMat)) : ∀ es : List Entry, Prims (fun p => p.symm = false) es →
    (∀ n ds es' o, Entry.nested n ds es' o ∈ es → WFs es' o) → ∀ e ∈ es,
    TouchTrav (goEntry (imDisp (V := V) map) (Entry.leafTrav (imDisp map) e) e.dims)
      (goEntry (setDispOn assign map) (Entry.leafTrav (setDispOn assign map) e) e.dims)
  | [], _, _ => by rintro e ⟨⟩
  | e :: es, hs, hn => by
    intro e' he'
    rcases List.mem_cons.1 he' with h | h
    · rw [h]
      exact goEntry_touch (fun inner f pay c r hf hr => outer_keeps inner hf pay c hr)
        (leafTrav_touch map e hs.1 fun n ds es' o he => hn n ds es' o (by rw [he]; exact List.mem_cons_self)) e.dims
    · exact travTable_touch map es hs.2 (fun n ds es' o he => hn n ds es' o (List.mem_cons_of_mem _ he)) e' h
end

end CE.St
