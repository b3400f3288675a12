import Verif.Struct.LemLast
import Verif.Struct.PropsNested
import Verif.Struct.PropsExtra

/-! # Assigning what has been read

A value that has the nesting and the patterns of what is read is written element by element. -/

namespace CE.St

variable {V : Type}

/-- A tree of index matrices, a tree of matrices of the same nesting and patterns, and the values at the positions. -/
inductive Match : Tree IMat → Tree (SMat V) → List (ℕ × V) → Prop
  | leaf {i : IMat} {m : SMat V} : i.sp = m.sp → m.WF → Full i → Match (.leaf i) (.leaf m) (i.data.zip m.data)
  | nil : Match (.list []) (.list []) []
  | cons {t t' w l l' w'} : Match t t' w → Match (.list l) (.list l') w' → Match (.list (t :: l)) (.list (t' :: l')) (w ++ w')
  | dnil : Match (.dict []) (.dict []) []
  | dcons {k t t' w l l' w'} : Match t t' w → Match (.dict l) (.dict l') w' →
      Match (.dict ((k, t) :: l)) (.dict ((k, t') :: l')) (w ++ w')

/-- The numbers are those of the elements of a list, counted from either end. -/
def Aligned (is : List ℤ) : Prop := ∀ (j : ℕ) (i : ℤ), is[j]? = some i → i = j ∨ i = j - is.length

theorem aligned_range (n : ℕ) : Aligned ((List.range n).map fun i : ℕ => (i : ℤ)) := by
  intro j i h
  rw [List.getElem?_map, Option.map_eq_some_iff] at h
  obtain ⟨a, ha, rfl⟩ := h
  rw [List.getElem?_eq_some_iff] at ha
  obtain ⟨h1, h2⟩ := ha
  rw [List.getElem_range] at h2
  exact .inl (by rw [h2])

theorem aligned_zipIdx {α : Type} (l : List α) : Aligned (l.zipIdx.map fun x : α × ℕ => (x.2 : ℤ)) := by
  intro j i h
  rw [List.getElem?_map, List.getElem?_zipIdx, Option.map_map, Option.map_eq_some_iff] at h
  obtain ⟨a, -, rfl⟩ := h
  exact .inl (by simp)

section
variable {F : Type}

/-- Repetitions are selected from the beginning and without gaps, such that the list that is read has the numbers of the
repetitions; the remaining power index, for exhausted `dims`, satisfies `L`. -/
def StraightDims (L : List (PIdx F) → Prop) : List ℕ → List (PIdx F) → Prop
  | [], pi => L pi
  | _ :: _, [] => L []
  | s :: ds, .slice a b st :: rest => (∀ is, sliceList a b st s = .ok is → Aligned is) ∧ StraightDims L ds rest
  | _ :: ds, .int _ :: rest => StraightDims L ds rest
  | _ :: ds, .list l :: rest => (∀ is, l = is.map .int → Aligned is) ∧ StraightDims L ds rest
  | _ :: ds, .nesteddict :: _ => StraightDims L ds [.nesteddict]
  | _ :: _, _ :: _ => True

/-- Every entry that a power index visits satisfies its condition for the rest of the power index. -/
def straightIn (tbl : List (String × (List (PIdx F) → Prop))) : List (PIdx F) → Prop
  | [] => True
  | .str k :: rest => ∀ x ∈ tbl, x.1 = k → x.2 rest
  | .ellipsis :: rest => ∀ x ∈ tbl, x.2 rest
  | .dict :: rest => ∀ x ∈ tbl, x.2 rest
  | .set ks :: rest => ∀ x ∈ tbl, x.1 ∈ ks → x.2 rest
  | .nesteddict :: _ => ∀ x ∈ tbl, x.2 [.nesteddict]
  | .list _ :: rest => straightIn tbl rest
  | _ :: _ => True

mutual
/-- The condition for an entry with exhausted `dims`. -/
def Entry.leafStraight : Entry → List (PIdx F) → Prop
  | .prim _ _ _, _ => True
  | .nested _ _ es _, pi => straightIn (straightTable es) pi
/-- The conditions for all entries. -/
def straightTable : List Entry → List (String × (List (PIdx F) → Prop))
  | [] => []
  | e :: es => (e.name, StraightDims e.leafStraight e.dims) :: straightTable es
end

theorem straightTable_eq (es : List Entry) :
    straightTable (F := F) es = es.map fun e => (e.name, StraightDims e.leafStraight e.dims) := by
  induction es with
  | nil => rw [straightTable]; rfl
  | cons e es ih => rw [straightTable, ih]; rfl

theorem StraightDims.alls {L : List (PIdx F) → Prop} (h : L []) (ds : List ℕ) : StraightDims L ds (ds.map fun _ => .all) := by
  induction ds with
  | nil => exact h
  | cons s ds ih =>
    refine ⟨fun is his => ?_, ih⟩
    rw [sliceList_all] at his
    cases his
    exact aligned_range s

end

section

/-- Reading index matrices, and writing a value of the same nesting and patterns. -/
def WStep {R : Type} (x : M Unit (Tree IMat)) (y : M (List V) R) (tv : Tree (SMat V)) : Prop :=
  ∀ ti, (x ()).1 = .ok ti → ∀ ws, Match ti tv ws → ∀ m : List V, (∀ w ∈ ws, w.1 < m.length) →
    ∃ r, y m = (.ok r, writeAll m ws)

theorem forEach_unit_cons {α β : Type} {a : α} {l : List α} {f : α → M Unit β} {rs : List β}
    (h : (M.forEach (a :: l) f ()).1 = .ok rs) : ∃ r rs', rs = r :: rs' ∧ (f a ()).1 = .ok r ∧ (M.forEach l f ()).1 = .ok rs' := by
  rw [M.forEach] at h
  simp only [M.bind] at h
  rcases hf : f a () with ⟨r, u⟩
  rw [hf] at h
  cases r with
  | error e => cases h
  | ok r =>
    simp only at h
    rcases hl : M.forEach l f u with ⟨r', u'⟩
    rw [hl] at h
    cases r' with
    | error e => cases h
    | ok rs' =>
      cases h
      exact ⟨r, rs', rfl, rfl, rfl⟩

/-- Loops that make lists. -/
theorem WStep.loop {γ δ R : Type} (l : List γ) : ∀ {l' : List δ} {f : γ → M Unit (Tree IMat)} {g : δ → M (List V) R}
    {tvs : List (Tree (SMat V))} (_ : l.length = l'.length)
    (_ : ∀ (j : ℕ) a b tv, l[j]? = some a → l'[j]? = some b → tvs[j]? = some tv → WStep (f a) (g b) tv)
    {ts : List (Tree IMat)} (_ : (M.forEach l f ()).1 = .ok ts) {ws : List (ℕ × V)} (_ : Match (.list ts) (.list tvs) ws)
    (m : List V) (_ : ∀ w ∈ ws, w.1 < m.length), ∃ rs, M.forEach l' g m = (.ok rs, writeAll m ws) := by
  induction l with
  | nil =>
    intro l' f g tvs hl _ ts hts ws hm m _
    cases l' with
    | cons => cases hl
    | nil =>
      cases hts
      cases hm
      exact ⟨[], rfl⟩
  | cons a l ih =>
    intro l' f g tvs hl H ts hts ws hm m hw
    cases l' with
    | nil => cases hl
    | cons b l' =>
      obtain ⟨r, ts', rfl, h1, h2⟩ := forEach_unit_cons hts
      cases hm with
      | @cons t tv w _ tvs' w' hm1 hm2 =>
        obtain ⟨x, hx⟩ := H 0 a b tv rfl rfl rfl r h1 w hm1 m fun y hy => hw y (List.mem_append_left _ hy)
        obtain ⟨xs, hxs⟩ := ih (l' := l') (Nat.succ.inj hl) (fun j a b tv ha hb ht => H (j + 1) a b tv ha hb ht) h2 hm2
          (writeAll m w) (by rw [writeAll_length]; exact fun y hy => hw y (List.mem_append_right _ hy))
        refine ⟨x :: xs, ?_⟩
        rw [M.forEach, writeAll_append]
        simp only [M.bind, hx, hxs]
        rfl

/-- Loops that make dicts. -/
theorem WStep.loopDict {γ R : Type} (l : List γ) (nm : γ → String) : ∀ {f : γ → M Unit (Tree IMat)}
    {g : String × Pay V → M (List V) R} {tvs : List (String × Tree (SMat V))}
    (_ : ∀ a ∈ l, ∀ tv, WStep (f a) (g (nm a, tv.toPay)) tv)
    {ts : List (String × Tree IMat)} (_ : (M.forEach l (fun a => M.bind (f a) fun r => M.pure (nm a, r)) ()).1 = .ok ts)
    {ws : List (ℕ × V)} (_ : Match (.dict ts) (.dict tvs) ws) (m : List V) (_ : ∀ w ∈ ws, w.1 < m.length),
    tvs.map (·.1) = l.map nm ∧ ∃ rs, M.forEach (toItems tvs) g m = (.ok rs, writeAll m ws) := by
  induction l with
  | nil =>
    intro f g tvs _ ts hts ws hm m _
    cases hts
    cases hm
    rw [toItems]
    exact ⟨rfl, [], rfl⟩
  | cons a l ih =>
    intro f g tvs H ts hts ws hm m hw
    obtain ⟨r, ts', rfl, h1, h2⟩ := forEach_unit_cons hts
    obtain ⟨k, t⟩ := r
    have h3 : k = nm a ∧ (f a ()).1 = .ok t := by
      simp only [M.bind] at h1
      rcases hf : f a () with ⟨r, u⟩
      rw [hf] at h1
      cases r <;> cases h1
      exact ⟨rfl, rfl⟩
    obtain ⟨rfl, h4⟩ := h3
    cases hm with
    | @dcons _ _ tv w _ tvs' w' hm1 hm2 =>
      obtain ⟨x, hx⟩ := H a List.mem_cons_self tv t h4 w hm1 m fun y hy => hw y (List.mem_append_left _ hy)
      obtain ⟨hk, xs, hxs⟩ := ih (fun a ha => H a (List.mem_cons_of_mem _ ha)) h2 hm2
        (writeAll m w) (by rw [writeAll_length]; exact fun y hy => hw y (List.mem_append_right _ hy))
      refine ⟨by rw [List.map_cons, List.map_cons, hk], x :: xs, ?_⟩
      rw [toItems, M.forEach, writeAll_append]
      simp only [M.bind, hx, hxs]
      rfl

theorem bind_pure_ok {α β : Type} {x : M Unit α} {f : α → β} {b : β} (h : (M.bind x (fun r => M.pure (f r)) ()).1 = .ok b) :
    ∃ a, (x ()).1 = .ok a ∧ f a = b := by
  simp only [M.bind] at h
  rcases hx : x () with ⟨r, u⟩
  rw [hx] at h
  cases r with
  | error e => cases h
  | ok a => cases h; exact ⟨a, rfl, rfl⟩

theorem unpack_aligned {tvs : List (Tree (SMat V))} {is : List ℤ} (ha : Aligned is) (hl : is.length = tvs.length) {j : ℕ} {i : ℤ}
    {tv : Tree (SMat V)} (hi : is[j]? = some i) (ht : tvs[j]? = some tv) :
    payloadUnpack (Tree.toPay (.list tvs)) (.int i) = .ok tv.toPay := by
  have hj : j < tvs.length := (List.getElem?_eq_some_iff.1 ht).1
  rw [Tree.toPay, toPays_eq, payloadUnpack]
  simp only [List.length_map]
  rw [if_neg (by rcases ha j i hi with h | h <;> omega)]
  have hg : (tvs.map Tree.toPay)[j]? = some tv.toPay := by rw [List.getElem?_map, ht]; rfl
  have hidx : (if i < 0 then i + ((tvs.map Tree.toPay).length : ℤ) else i) = j := by
    rw [List.length_map]
    rcases ha j i hi with h | h
    · rw [if_neg (by omega), h]
    · rw [hl] at h
      rw [if_pos (by omega), h]
      omega
  simp only [pyIndex, hidx]
  rw [if_neg (by omega), Int.toNat_natCast, hg]

/-- A loop over repetitions, or over entries in an order. -/
theorem WStep.list {γ R : Type} {l : List γ} {key : γ → ℤ} (ha : Aligned (l.map key)) {f : γ → Pay V → M Unit (Tree IMat)}
    {g : γ → Pay V → M (List V) (Tree R)} (tv : Tree (SMat V)) (H : ∀ a ∈ l, ∀ tv : Tree (SMat V), WStep (f a .none) (g a tv.toPay) tv) :
    WStep (M.bind (M.forEach l fun a => M.bind (ex (payloadUnpack .none (.int (key a)))) (f a)) fun r => M.pure (Tree.list r))
      (M.bind (M.forEach l fun a => M.bind (ex (payloadUnpack tv.toPay (.int (key a)))) (g a)) fun r => M.pure (Tree.list r)) tv := by
  intro ti hti ws hm m hw
  obtain ⟨ts, h1, rfl⟩ := bind_pure_ok hti
  have hlen : ∀ (l : List γ) ts, (M.forEach l (fun a => M.bind (ex (payloadUnpack .none (.int (key a)))) (f a)) ()).1 = .ok ts →
      l.length = ts.length := by
    intro l
    induction l with
    | nil => intro ts h; cases h; rfl
    | cons a l ih =>
      intro ts h
      obtain ⟨r, ts', rfl, -, h2⟩ := forEach_unit_cons h
      rw [List.length_cons, List.length_cons, ih ts' h2]
  have hlt : ∀ {ts : List (Tree IMat)} {tv : Tree (SMat V)} {ws}, Match (.list ts) tv ws → ∃ tvs, tv = .list tvs ∧ ts.length = tvs.length := by
    intro ts
    induction ts with
    | nil => intro tv ws h; cases h; exact ⟨[], rfl, rfl⟩
    | cons t ts ih =>
      intro tv ws h
      cases h with
      | cons h1 h2 =>
        obtain ⟨tvs, h3, h4⟩ := ih h2
        cases h3
        exact ⟨_, rfl, by rw [List.length_cons, List.length_cons, h4]⟩
  obtain ⟨tvs, rfl, h2⟩ := hlt hm
  have h3 : (l.map key).length = tvs.length := by rw [List.length_map, hlen l ts h1, h2]
  obtain ⟨rs, hrs⟩ := WStep.loop l (l' := l) (g := fun a => M.bind (ex (payloadUnpack (Tree.toPay (.list tvs)) (.int (key a)))) (g a))
    rfl (fun j a b tv hja hjb ht => by
      rw [hja] at hjb
      cases hjb
      have hu := unpack_aligned ha h3 (j := j) (i := key a) (by rw [List.getElem?_map, hja]; rfl) ht
      intro ti hti ws hm m hw
      have := H a (List.mem_of_getElem? hja) tv ti hti ws hm m hw
      rw [hu]
      exact this) h1 hm m hw
  refine ⟨.list rs, ?_⟩
  simp only [M.bind, hrs]
  rfl

/-- Traversals for reading index matrices and for writing. -/
def WTrav {F R : Type} (P : List (PIdx F) → Prop) (t : Trav Unit V F IMat) (t' : Trav (List V) V F R) : Prop :=
  ∀ pi c tv, P pi → (∀ f, .fn f ∉ pi) → WStep (t pi false c .none) (t' pi false c tv.toPay) tv

theorem WStep.throw {R : Type} {y : M (List V) R} {tv : Tree (SMat V)} (e : PyErr) : WStep (M.throw e) y tv := by
  rintro ti ⟨⟩

theorem goEntry_write {F R : Type} {d : Disp Unit V F IMat} {d' : Disp (List V) V F R} {P : List (PIdx F) → Prop}
    {leaf : Trav Unit V F IMat} {leaf' : Trav (List V) V F R} (hl : WTrav P leaf leaf') (ds : List ℕ) :
    WTrav (StraightDims P ds) (goEntry d leaf ds) (goEntry d' leaf' ds) := by
  induction ds with
  | nil =>
    intro pi c tv hP hf
    rw [goEntry_nil, goEntry_nil]
    exact hl pi c tv hP hf
  | cons s ds ih =>
    intro pi c tv hP hf
    cases pi with
    | nil =>
      rw [goEntry, goEntry, sliceList_all]
      exact WStep.list (l := (List.range s).map fun i : ℕ => (i : ℤ)) (key := fun i => i)
        (by rw [List.map_id']; exact aligned_range s) tv fun i _ tv => ih _ _ _ (StraightDims.alls (L := P) hP ds) (by
          intro f hf
          obtain ⟨_, _, h⟩ := List.mem_map.1 hf
          cases h)
    | cons p rest =>
      have hf' : ∀ f, .fn f ∉ rest := fun f h => hf f (List.mem_cons_of_mem _ h)
      cases p with
      | slice a b st =>
        rw [goEntry, goEntry]
        cases hs : sliceList a b st s with
        | error e => rintro ti ⟨⟩
        | ok is =>
          exact WStep.list (l := is) (key := fun i => i) (by rw [List.map_id']; exact hP.1 is hs) tv
            fun i _ tv => ih _ _ _ hP.2 hf'
      | int i =>
        rw [goEntry_int, goEntry_int]
        exact ih _ _ _ hP hf'
      | list l =>
        rw [goEntry, goEntry]
        by_cases h : ∃ is : List ℤ, l = is.map Key.int
        · obtain ⟨is, rfl⟩ := h
          rw [M.forEach_map, M.forEach_map]
          exact WStep.list (l := is) (key := fun i => i) (by rw [List.map_id']; exact hP.1 is rfl) tv
            fun i _ tv => ih _ _ _ hP.2 hf'
        · intro ti hti
          obtain ⟨ts, h1, -⟩ := bind_pure_ok hti
          exfalso
          apply h
          have key : ∀ (f : Key → M Unit (Tree IMat)), (∀ s, ∃ e, (f (.str s) ()).1 = .error e) → ∀ (l : List Key) ts,
              (M.forEach l f ()).1 = .ok ts → ∃ is : List ℤ, l = is.map Key.int := by
            intro f hs l
            induction l with
            | nil => intro _ _; exact ⟨[], rfl⟩
            | cons a l ih =>
              intro ts h
              obtain ⟨r, ts', rfl, h1, h2⟩ := forEach_unit_cons h
              obtain ⟨is, rfl⟩ := ih _ h2
              cases a with
              | str s =>
                obtain ⟨e, he⟩ := hs s
                rw [he] at h1
                cases h1
              | int i => exact ⟨i :: is, rfl⟩
          exact key _ (fun s => ⟨_, rfl⟩) l ts h1
      | nesteddict =>
        rw [goEntry, goEntry]
        exact WStep.list (l := List.range s) (key := fun i : ℕ => (i : ℤ)) (aligned_range s) tv
          fun i _ tv => ih _ _ _ hP (by simp)
      | fn f => exact (hf f List.mem_cons_self).elim
      | str => rw [goEntry] <;> first | exact WStep.throw _ | (intros; contradiction)
      | ellipsis => rw [goEntry] <;> first | exact WStep.throw _ | (intros; contradiction)
      | dict => rw [goEntry] <;> first | exact WStep.throw _ | (intros; contradiction)
      | set => rw [goEntry] <;> first | exact WStep.throw _ | (intros; contradiction)
      | indexf => rw [goEntry] <;> first | exact WStep.throw _ | (intros; contradiction)
      | index => rw [goEntry] <;> first | exact WStep.throw _ | (intros; contradiction)
      | mat => rw [goEntry] <;> first | exact WStep.throw _ | (intros; contradiction)

theorem entryTrav_none {σ F R : Type} (d : Disp σ V F R) {es : List Entry} {k : String} (h : ∀ e ∈ es, e.name ≠ k)
    (pi : List (PIdx F)) (inner : Bool) (c : CIdx) (pay : Pay V) : entryTrav d es k pi inner c pay = M.throw .generic := by
  unfold entryTrav
  have : (travTable d es).reverse.find? (fun t => decide (t.1 = k)) = none := by
    rw [List.find?_eq_none]
    intro x hx
    rw [List.mem_reverse, travTable_eq, List.mem_map] at hx
    obtain ⟨e, he, rfl⟩ := hx
    simpa using h e he
  rw [this]

theorem match_dict {ts : List (String × Tree IMat)} : ∀ {tv : Tree (SMat V)} {ws}, Match (.dict ts) tv ws → ∃ tvs, tv = .dict tvs := by
  induction ts with
  | nil => intro tv ws h; cases h; exact ⟨[], rfl⟩
  | cons t ts ih =>
    intro tv ws h
    cases h with
    | dcons h1 h2 => exact ⟨_, rfl⟩

theorem goStruct_write {F R : Type} {d : Disp Unit V F IMat} {d' : Disp (List V) V F R} {es : List Entry}
    (hn : (es.map Entry.name).Nodup) (keys : List String)
    (hes : ∀ e ∈ es, WTrav (StraightDims e.leafStraight e.dims) (goEntry d (Entry.leafTrav d e) e.dims)
      (goEntry d' (Entry.leafTrav d' e) e.dims))
    (hcall : ∀ c (tv : Tree (SMat V)), WStep (M.bind (d.call false .none c none none) fun r => M.pure (.leaf r))
      (M.bind (d'.call false tv.toPay c none none) fun r => M.pure (Tree.leaf r)) tv) :
    WTrav (straightIn (straightTable es)) (goStruct d keys (travTable d es)) (goStruct d' keys (travTable d' es)) := by
  have hent : ∀ k pi c (tv : Tree (SMat V)), (∀ e ∈ es, e.name = k → StraightDims e.leafStraight e.dims pi) → (∀ f, .fn f ∉ pi) →
      WStep (goStruct d keys (travTable d es) (.str k :: pi) false c .none)
        (goStruct d' keys (travTable d' es) (.str k :: pi) false c tv.toPay) tv := by
    intro k pi c tv hP hf
    rw [goStruct_str, goStruct_str]
    by_cases h : ∃ e ∈ es, e.name = k
    · obtain ⟨e, he, rfl⟩ := h
      rw [entryTrav_of_mem d hn he, entryTrav_of_mem d' hn he]
      exact hes e he pi _ tv (hP e he rfl) hf
    · rw [entryTrav_none d (fun e he hk => h ⟨e, he, hk⟩)]
      exact WStep.throw _
  intro pi
  induction pi with
  | nil =>
    intro c tv _ _
    rw [goStruct, goStruct]
    exact hcall c tv
  | cons p rest ih =>
    intro c tv hP hf
    have hf' : ∀ f, .fn f ∉ rest := fun f h => hf f (List.mem_cons_of_mem _ h)
    have tbl : ∀ e ∈ es, (e.name, StraightDims (F := F) e.leafStraight e.dims) ∈ straightTable es := by
      intro e he
      rw [straightTable_eq]
      exact List.mem_map_of_mem he
    have hdict : ∀ {γ : Type} (l : List γ) (nm : γ → String) (pi' : List (PIdx F)),
        (∀ a ∈ l, ∀ e ∈ es, e.name = nm a → StraightDims e.leafStraight e.dims pi') → (∀ f, .fn f ∉ pi') →
        ∀ (y : M (List V) (Tree R)), (∀ tvs : List (String × Tree (SMat V)), tv = .dict tvs → tvs.map (·.1) = l.map nm →
          y = M.bind (M.forEach (toItems tvs) fun kv => M.bind (goStruct d' keys (travTable d' es) (.str kv.1 :: pi') false c kv.2)
            fun r => M.pure (kv.1, r)) fun r => M.pure (.dict r)) →
        WStep (M.bind (M.forEach l fun a => M.bind (goStruct d keys (travTable d es) (.str (nm a) :: pi') false c .none) fun r =>
          M.pure (nm a, r)) fun r => M.pure (.dict r)) y tv := by
      intro γ l nm pi' hl hfn y hy ti hti ws hm m hw
      obtain ⟨ts, h1, rfl⟩ := bind_pure_ok hti
      obtain ⟨tvs, rfl⟩ := match_dict hm
      obtain ⟨hk, rs, hrs⟩ := WStep.loopDict l nm
        (g := fun kv => M.bind (goStruct d' keys (travTable d' es) (.str kv.1 :: pi') false c kv.2) fun r => M.pure (kv.1, r))
        (fun a ha tv ti hti ws hm m hw => by
          obtain ⟨r, hr⟩ := hent (nm a) pi' c tv (hl a ha) hfn ti hti ws hm m hw
          refine ⟨(nm a, r), ?_⟩
          simp only [M.bind, hr]
          rfl) h1 hm m hw
      refine ⟨.dict rs, ?_⟩
      rw [hy tvs rfl hk]
      simp only [M.bind] at hrs ⊢
      rw [hrs]
      rfl
    cases p with
    | str k => exact hent k rest c tv (fun e he hk => hP _ (tbl e he) hk) hf'
    | ellipsis =>
      rw [goStruct_ellipsis, goStruct_ellipsis]
      exact WStep.list (l := keys.zipIdx) (key := fun ki => (ki.2 : ℤ)) (aligned_zipIdx _) tv fun ki _ tv =>
        hent ki.1 rest c tv (fun e he _ => hP _ (tbl e he)) hf'
    | dict =>
      rw [goStruct_dict _ _ hn _ _ _ _ (by simp)]
      refine hdict es Entry.name rest (fun _ _ e he _ => hP _ (tbl e he)) hf' _ fun tvs htv _ => ?_
      rw [htv, Tree.toPay, goStruct_dict_items]
    | nesteddict =>
      rw [goStruct_nested _ _ hn _ _ _ _ (by simp)]
      refine hdict es Entry.name [.nesteddict] (fun _ _ e he _ => hP _ (tbl e he)) (by simp) _ fun tvs htv _ => ?_
      rw [htv, Tree.toPay, goStruct_nested_items]
    | set ks =>
      rw [goStruct_set _ _ _ _ _ _ _ _ (by simp)]
      refine hdict ks id rest (fun k hk e he h => hP _ (tbl e he) (by rw [h]; exact hk)) hf' _ fun tvs htv hks => ?_
      rw [htv, Tree.toPay, goStruct_set_items]
      have : (toItems tvs).filter (fun kv => kv.1 ∈ ks) = toItems tvs := by
        rw [List.filter_eq_self]
        intro kv hkv
        rw [toItems_eq, List.mem_map] at hkv
        obtain ⟨x, hx, rfl⟩ := hkv
        rw [List.map_id] at hks
        simpa [← hks] using ⟨x.2, hx⟩
      rw [this]
    | list l =>
      rw [goStruct, goStruct]
      exact WStep.list (l := l.zipIdx) (key := fun ki => (ki.2 : ℤ)) (aligned_zipIdx _) tv fun ki _ tv => ih _ _ hP hf'
    | fn f => exact (hf f List.mem_cons_self).elim
    | int => rw [goStruct] <;> first | exact WStep.throw _ | (intros; contradiction)
    | slice => rw [goStruct] <;> first | exact WStep.throw _ | (intros; contradiction)
    | indexf => rw [goStruct] <;> first | exact WStep.throw _ | (intros; contradiction)
    | index => rw [goStruct] <;> first | exact WStep.throw _ | (intros; contradiction)
    | mat => rw [goStruct] <;> first | exact WStep.throw _ | (intros; contradiction)

variable [Zero V]

/-- Writing an element as it is read. -/
theorem call_write {map : List (CIdx × IMat)} (c : CIdx) (x : Option (List (PIdx (PyFn V)))) (e : Option Prim)
    (he : ∀ p, e = some p → p.symm = false) (tv : Tree (SMat V)) :
    WStep (M.bind ((imDisp (V := V) map).call false .none c x e) fun r => M.pure (.leaf r))
      (M.bind ((setDispOn assign map).call false tv.toPay c x e) fun r => M.pure (Tree.leaf r)) tv := by
  intro ti hti ws hm m hw
  obtain ⟨i, h1, rfl⟩ := bind_pure_ok hti
  have h1 : imCall applyIdx map c x e = .ok i := h1
  unfold imCall at h1
  cases hidx : dictGet map c with
  | none => rw [hidx] at h1; cases h1
  | some idx =>
    rw [hidx] at h1
    simp only at h1
    cases hm with
    | @leaf _ v hsp hwf hfull =>
      have ha : assign m i v = .ok (writeAll m (i.data.zip v.data)) := by
        unfold assign
        have h2 : ¬ i.data.any (fun k => k ≥ m.length) = true := by
          rw [List.any_eq_true]
          rintro ⟨k, hk, hk'⟩
          obtain ⟨j, hj, rfl⟩ := List.getElem_of_mem hk
          have hv : j < v.data.length := by rw [hwf.2, ← hsp, ← hfull]; exact hj
          have := hw (i.data[j], v.data[j]) (List.mem_iff_getElem.2 ⟨j, by simp [hj, hv], by simp⟩)
          simp only [decide_eq_true_eq] at hk'
          omega
        rw [if_neg h2, if_pos ⟨by rw [hsp], by rw [hsp]⟩, hsp, SMat.map_at' hwf]
      have hs : setCallOn assign map (.mat v) c x e m = (.ok (), writeAll m (i.data.zip v.data)) := by
        unfold setCallOn
        simp only [Pay.toMat, hidx, h1]
        cases e with
        | none => simp only [ha]
        | some p =>
          obtain ⟨sp, sy, orig, ss⟩ := p
          have := he _ rfl
          simp only at this
          subst this
          simp only [ha]
      refine ⟨.leaf none, ?_⟩
      simp only [setDispOn, Bool.false_eq_true, if_false, M.bind, Tree.toPay, hs]
      rfl

mutual
theorem leafTrav_write (map : List (CIdx × IMat)) : ∀ e : Entry, e.Prims (fun p => p.symm = false) →
    (∀ n ds es o, e = .nested n ds es o → WFs es o) →
    WTrav e.leafStraight (Entry.leafTrav (imDisp (V := V) map) e) (Entry.leafTrav (setDispOn assign map) e)
  | .prim n ds p, hs, _ => by
    intro pi c tv _ _
    rw [Entry.leafTrav, Entry.leafTrav]
    exact call_write c _ _ (by rintro _ ⟨⟩; exact hs) tv
  | .nested n ds es o, hs, hn => by
    intro pi c tv hP hf
    rw [Entry.leafTrav, Entry.leafTrav]
    cases pi with
    | nil => exact call_write c _ _ (by rintro _ ⟨⟩) tv
    | cons p rest =>
      rw [Entry.leafStraight] at hP
      have hw := hn n ds es o rfl
      exact goStruct_write hw.nodup _ (travTable_write map es hs fun n ds es' o' he => hw.sub n ds es' o' he)
        (fun c tv => call_write c _ _ (by rintro _ ⟨⟩) tv) _ c tv hP hf
theorem travTable_write (map : List (CIdx × IMat)) : ∀ es : List Entry, Prims (fun p => p.symm = false) es →
    (∀ n ds es' o, Entry.nested n ds es' o ∈ es → WFs es' o) → ∀ e ∈ es,
    WTrav (StraightDims e.leafStraight e.dims) (goEntry (imDisp (V := V) map) (Entry.leafTrav (imDisp map) e) e.dims)
      (goEntry (setDispOn assign map) (Entry.leafTrav (setDispOn assign map) e) e.dims)
  | [], _, _ => by rintro e ⟨⟩
  | e :: es, hs, hn => by
    intro e' he'
    rcases List.mem_cons.1 he' with h | h
    · rw [h]
      exact goEntry_write (leafTrav_write map e hs.1 fun n ds es' o he => hn n ds es' o (by rw [he]; exact List.mem_cons_self)) e.dims
    · exact travTable_write map es hs.2 (fun n ds es' o he => hn n ds es' o (List.mem_cons_of_mem _ he)) e' h
end

/-! ## The patterns of what is read -/

theorem getLin_WF {F : Type} {i r : IMat} {a : PIdx F} (h : getLin i a = .ok r) : r.WF := by
  rcases getLin_cases i a with ⟨m, -, e⟩ | e
  · rw [e] at h
    obtain ⟨a, b, f, rfl⟩ := getMat_part h
    exact partMat_WF _ _ _ _
  rw [e] at h
  unfold getSel at h
  cases hl : selIdx (i.sp.rows * i.sp.cols) a with
  | error e => rw [hl] at h; cases h
  | ok l =>
    rw [hl] at h
    change (if i.sp.rows = 1 then _ else _) = _ at h
    split at h <;> cases h <;> exact subMat_WF _ _ _ _

theorem getRC_WF {F : Type} {i r : IMat} {a b : PIdx F} (h : getRC i a b = .ok r) : r.WF := by
  unfold getRC at h
  cases hl : selIdx i.sp.rows a with
  | error e => rw [hl] at h; cases h
  | ok l =>
    cases hl' : selIdx i.sp.cols b with
    | error e => rw [hl, hl'] at h; cases h
    | ok l' =>
      rw [hl, hl'] at h
      cases h
      exact subMat_WF _ _ _ _

omit [Zero V] in
theorem performExtraIndex_WF {i : IMat} (hi : i.WF) (entry : Option Prim) (flip : Bool) (x : List (PIdx (PyFn V))) :
    (∀ f, .fn f ∉ x) → ∀ {r : IMat}, performExtraIndex applyIdx i entry flip x = .ok r → r.WF := by
  fun_induction performExtraIndex applyIdx i entry flip x with
  | case1 => rintro _ r ⟨⟩; exact hi
  | case2 f rest ih => exact fun hf => (hf f List.mem_cons_self).elim
  | case3 => rintro _ r ⟨⟩; exact hi
  | case4 a h1 h2 =>
    intro _ r hr
    cases ha : delegation a entry 0 with
    | error e => rw [ha] at hr; cases hr
    | ok a' => rw [ha] at hr; exact getLin_WF hr
  | case5 a b h1 h2 =>
    intro _ r hr
    cases ha : delegation a entry 0 with
    | error e => rw [ha] at hr; cases hr
    | ok a' =>
      cases hb : delegation b entry 1 with
      | error e => rw [ha, hb] at hr; cases hr
      | ok b' =>
        rw [ha, hb] at hr
        simp only [Except.bind] at hr
        split at hr <;> exact getRC_WF hr
  | case6 => rintro _ r ⟨⟩

/-- Genuine index matrices. -/
def WFT (t t' : Tree IMat) : Prop := t = t' ∧ t.All SMat.WF

theorem WFT.list {l l'} (h : List.Forall₂ WFT l l') : WFT (.list l) (.list l') := by
  suffices hs : l = l' ∧ Tree.All.goList SMat.WF l from ⟨by rw [hs.1], hs.2⟩
  induction h with
  | nil => exact ⟨rfl, trivial⟩
  | cons hxy _ ih => exact ⟨congrArg₂ List.cons hxy.1 ih.1, hxy.2, ih.2⟩

theorem WFT.dict {l l' : List (String × Tree IMat)} (h : List.Forall₂ (fun x y => x.1 = y.1 ∧ WFT x.2 y.2) l l') :
    WFT (.dict l) (.dict l') := by
  suffices hs : l = l' ∧ Tree.All.goDict SMat.WF l from ⟨by rw [hs.1], hs.2⟩
  induction h with
  | nil => exact ⟨rfl, trivial⟩
  | @cons x y _ _ hxy _ ih => exact ⟨congrArg₂ List.cons (Prod.ext hxy.1 hxy.2.1) ih.1, hxy.2.2, ih.2⟩

omit [Zero V] in
theorem imDisp_WF {map : List (CIdx × IMat)} (hmap : ∀ c m, dictGet map c = some m → m.WF) :
    DRel (fun _ _ => True) WFT [] (fun _ => False) (imDisp (V := V) map) (imDisp map) (fun _ => True) (fun _ => True) where
  ext _ _ _ := trivial
  list h := .list h
  dict h := .dict h
  call := by
    intro inner pay c x e _ hx _ s s' _
    rw [List.nil_append]
    show RRel _ _ (imCall applyIdx map c x e, s) (imCall applyIdx map c x e, s')
    cases hi : imCall applyIdx map c x e with
    | error e => exact ⟨rfl, trivial⟩
    | ok i =>
      refine ⟨⟨rfl, ?_⟩, trivial⟩
      unfold imCall at hi
      cases hg : dictGet map c with
      | none => rw [hg] at hi; cases hi
      | some m => rw [hg] at hi; exact performExtraIndex_WF (hmap c m hg) _ _ _ (fun f hf => hx _ hf f rfl) hi
  outer := by
    rintro inner f pay c c' _ r hf
    exact hf.elim

omit [Zero V] in
/-- The index matrices that are read without callables are genuine. -/
theorem CS.i_WF (s : Struct) (hwf : WFs s.entries s.order) (c : CS) (hc : CS.ofStruct s = .ok c) (pi : List (PIdx (PyFn V)))
    (hf : ∀ f, .fn f ∉ pi) {t : Tree IMat} (ht : c.i pi = .ok t) : t.All SMat.WF := by
  obtain ⟨c', ls, hc', rfl, hb⟩ := ofStruct_built hwf
  rw [hc] at hc'
  cases hc'
  have hd := imDisp_WF (V := V) (map := c.map) fun d m hm => by
    obtain ⟨e, sp, hp⟩ := hb.get_part hwf hm
    obtain ⟨m', h1, h2, -⟩ := hb.part hwf hp
    rw [hm] at h1
    cases h1
    exact h2
  have h := goStruct_relC hd c.struct.keys (travTable_rel hd c.struct.entries (Prims.true _)) pi false [] .none
    (.of_mem (C := fun _ => True) (fun _ _ _ => trivial) trivial _) (by rintro p hp f rfl; exact hf f hp) () () trivial
  rw [List.append_nil] at h
  rw [CS.i, Struct.traverse_fst] at ht
  rcases hx : goStruct (imDisp (V := V) c.map) c.struct.keys (travTable (imDisp c.map) c.struct.entries) pi false []
    .none () with ⟨r, u⟩
  rw [hx] at h ht
  cases r with
  | error e => cases ht
  | ok t' => cases ht; exact h.1.2

/-! ## What has been read matches -/

omit [Zero V] in
/-- A value that matches is read back if the positions have the values. -/
theorem Match.read {ti : Tree IMat} {tv : Tree (SMat V)} {ws} (h : Match ti tv ws) {g : ℕ → V} (hg : ∀ w ∈ ws, g w.1 = w.2) :
    ti.map' (fun i : IMat => ⟨i.sp, i.data.map g⟩) = tv := by
  induction h with
  | @leaf i m hsp hwf hfull =>
    have : i.data.map g = m.data := by
      apply List.ext_getElem
      · rw [List.length_map, hfull, hwf.2, hsp]
      · intro j h1 h2
        rw [List.getElem_map]
        rw [List.length_map] at h1
        exact hg (i.data[j], m.data[j]) (List.mem_iff_getElem.2 ⟨j, by simp [h1, h2], by simp⟩)
    rw [Tree.map', this, hsp]
  | nil => rfl
  | cons _ _ ih1 ih2 =>
    have h1 := ih1 fun w hw => hg w (List.mem_append_left _ hw)
    have h2 := ih2 fun w hw => hg w (List.mem_append_right _ hw)
    rw [Tree.map'] at h2 ⊢
    rw [Tree.map'.goList, h1]
    rw [Tree.list.injEq] at h2
    rw [h2]
  | dnil => rfl
  | dcons _ _ ih1 ih2 =>
    have h1 := ih1 fun w hw => hg w (List.mem_append_left _ hw)
    have h2 := ih2 fun w hw => hg w (List.mem_append_right _ hw)
    rw [Tree.map'] at h2 ⊢
    rw [Tree.map'.goDict, h1]
    rw [Tree.dict.injEq] at h2
    rw [h2]

omit [Zero V] in
/-- ... and only then. -/
theorem Match.read_inv {ti : Tree IMat} {tv : Tree (SMat V)} {ws} (h : Match ti tv ws) {g : ℕ → V} 
    (hr : ti.map' (fun i : IMat => ⟨i.sp, i.data.map g⟩) = tv) : ∀ w ∈ ws, g w.1 = w.2 := by
  induction h with
  | @leaf i m hsp hwf hfull =>
    rw [Tree.map', Tree.leaf.injEq] at hr
    rw [← hr]
    intro w hw
    obtain ⟨j, hj, rfl⟩ := List.getElem_of_mem hw
    simp
  | nil => rintro w ⟨⟩
  | cons _ _ ih1 ih2 =>
    rw [Tree.map', Tree.map'.goList, Tree.list.injEq, List.cons.injEq] at hr
    intro w hw
    rcases List.mem_append.1 hw with hw | hw
    · exact ih1 hr.1 w hw
    · exact ih2 (by rw [Tree.map', hr.2]) w hw
  | dnil => rintro w ⟨⟩
  | dcons _ _ ih1 ih2 =>
    rw [Tree.map', Tree.map'.goDict, Tree.dict.injEq, List.cons.injEq, Prod.mk.injEq] at hr
    intro w hw
    rcases List.mem_append.1 hw with hw | hw
    · exact ih1 hr.1.2 w hw
    · exact ih2 (by rw [Tree.map', hr.2]) w hw

omit [Zero V] in
mutual
/-- What is read from a vector matches, with the values of the vector. -/
theorem match_read (g : ℕ → V) : ∀ t : Tree IMat, t.All SMat.WF →
    ∃ ws, Match t (t.map' fun i : IMat => ⟨i.sp, i.data.map g⟩) ws ∧ ∀ w ∈ ws, w.2 = g w.1
  | .leaf i, h => by
    refine ⟨_, .leaf (m := ⟨i.sp, i.data.map g⟩) rfl ⟨h.1, (List.length_map _).trans h.2⟩ h.2, fun w hw => ?_⟩
    obtain ⟨j, hj, rfl⟩ := List.getElem_of_mem hw
    simp
  | .list l, h => by
    obtain ⟨ws, h1, h2⟩ := match_readList g l h
    exact ⟨ws, h1, h2⟩
  | .dict l, h => by
    obtain ⟨ws, h1, h2⟩ := match_readDict g l h
    exact ⟨ws, h1, h2⟩
theorem match_readList (g : ℕ → V) : ∀ l : List (Tree IMat), Tree.All.goList SMat.WF l →
    ∃ ws, Match (.list l) ((Tree.list l).map' fun i : IMat => ⟨i.sp, i.data.map g⟩) ws ∧ ∀ w ∈ ws, w.2 = g w.1
  | [], _ => ⟨[], .nil, by rintro w ⟨⟩⟩
  | t :: l, h => by
    obtain ⟨ws, h1, h2⟩ := match_read g t h.1
    obtain ⟨ws', h3, h4⟩ := match_readList g l h.2
    exact ⟨ws ++ ws', .cons h1 h3, fun w hw => (List.mem_append.1 hw).elim (h2 w) (h4 w)⟩
theorem match_readDict (g : ℕ → V) : ∀ l : List (String × Tree IMat), Tree.All.goDict SMat.WF l →
    ∃ ws, Match (.dict l) ((Tree.dict l).map' fun i : IMat => ⟨i.sp, i.data.map g⟩) ws ∧ ∀ w ∈ ws, w.2 = g w.1
  | [], _ => ⟨[], .dnil, by rintro w ⟨⟩⟩
  | (k, t) :: l, h => by
    obtain ⟨ws, h1, h2⟩ := match_read g t h.1
    obtain ⟨ws', h3, h4⟩ := match_readDict g l h.2
    exact ⟨ws ++ ws', .dcons h1 h3, fun w hw => (List.mem_append.1 hw).elim (h2 w) (h4 w)⟩
end

/-- The positions of the writes are those of the index matrices. -/
theorem Match.lt {ti : Tree IMat} {tv : Tree (SMat V)} {ws} (h : Match ti tv ws) {n : ℕ} (ht : ti.All fun i => ∀ k ∈ i.data, k < n) :
    ∀ w ∈ ws, w.1 < n := by
  induction h with
  | leaf => exact fun w hw => ht _ (List.of_mem_zip (a := w.1) (b := w.2) hw).1
  | nil => rintro w ⟨⟩
  | cons _ _ ih1 ih2 => exact fun w hw => (List.mem_append.1 hw).elim (ih1 ht.1 w) (ih2 ht.2 w)
  | dnil => rintro w ⟨⟩
  | dcons _ _ ih1 ih2 => exact fun w hw => (List.mem_append.1 hw).elim (ih1 ht.1 w) (ih2 ht.2 w)

end

end CE.St
