import Verif.Struct.LemCallable
import Verif.Struct.PropsExtra
import Verif.Struct.PropsFlat

/-! # Callables in power indices: C79 -/

namespace CE.St

variable {V : Type}

/-- A canonical index that does not reach an element yet: that of a struct or nested struct, or that of an entry followed by
some but not all of its repeat indices. -/
inductive Pending (es : List Entry) (o : List OrderItem) : CIdx → Prop
  | struct {a es' o'} : IsAt es o a es' o' → Pending es o a
  | entry {a es' o'} {e : Entry} {ks : CIdx} {ds1 ds2 : List ℕ} {d : ℕ} : IsAt es o a es' o' → e ∈ es' →
      e.dims = ds1 ++ d :: ds2 → InDims ks ds1 → Pending es o (a ++ .str e.name :: ks)

/-- The traversal from a pending index on. -/
theorem Pending.trav {σ F R σ' R' : Type} {es : List Entry} {o : List OrderItem} (hwf : WFs es o) {a : CIdx}
    (h : Pending es o a) (d : Disp σ V F R) (d' : Disp σ' V F R') :
    ∃ (t : Trav σ V F R) (t' : Trav σ' V F R'),
      (∀ rest inner pay, goStruct d (o.flatMap OrderItem.names) (travTable d es) (a.map .ofKey ++ rest) inner [] pay =
        t rest inner a pay) ∧
      (∀ rest inner pay, goStruct d' (o.flatMap OrderItem.names) (travTable d' es) (a.map .ofKey ++ rest) inner [] pay =
        t' rest inner a pay) ∧
      (∀ f rest inner c pay, t (.fn f :: rest) inner c pay =
        M.bind (t rest true c pay) fun r => d.outer inner f pay c r) ∧
      (∀ f rest inner c pay, t' (.fn f :: rest) inner c pay =
        M.bind (t' rest true c pay) fun r => d'.outer inner f pay c r) ∧
      ∀ S T, InnerRel S T d d' → TravIn S T t t' := by
  cases h with
  | @struct _ es' o' h =>
    refine ⟨goStruct d (o'.flatMap OrderItem.names) (travTable d es'), goStruct d' (o'.flatMap OrderItem.names) (travTable d' es'),
      fun _ _ _ => goStruct_at _ hwf h _ _ _ _, fun _ _ _ => goStruct_at _ hwf h _ _ _ _, ?_, ?_, ?_⟩
    · intro f rest inner c pay; rw [goStruct]
    · intro f rest inner c pay; rw [goStruct]
    · intro S T hd pi inner c pay pay' hp hp'
      exact goStruct_in hd _ (travTable_in hd es') pi inner c pay pay' hp hp'
  | @entry b es' o' e ks ds1 ds2 d1 h he hds hks =>
    refine ⟨goEntry d (Entry.leafTrav d e) (d1 :: ds2), goEntry d' (Entry.leafTrav d' e) (d1 :: ds2),
      fun _ _ _ => goStruct_at_entry _ hwf h he hds hks _ _ _ _, fun _ _ _ => goStruct_at_entry _ hwf h he hds hks _ _ _ _,
      ?_, ?_, ?_⟩
    · intro f rest inner c pay; rw [goEntry]
    · intro f rest inner c pay; rw [goEntry]
    · intro S T hd
      exact goEntry_in hd (leafTrav_in hd e) _

theorem gen_eq {α : Type} (x : Except PyErr α) : gen x = x.mapError fun _ => .generic := by cases x <;> rfl

/-- A callable applied to the result of a computation that does not depend on `inner` and has no state. -/
theorem gen_bind_fn {R : Type} (x : M Unit (Tree R)) (g : Tree R → Except PyErr (Tree R)) :
    gen (M.bind x (fun r => ex (g r)) ()).1 = ((gen (x ()).1).bind g).mapError fun _ => .generic := by
  rw [M.bind]
  rcases x () with ⟨r, u⟩
  cases r with
  | error e => rfl
  | ok t =>
    simp only [ex, M.lift, gen, Except.bind]
    cases g t <;> rfl

/-! ## Traversals without state do not depend on `inner` -/

section
variable [Zero V] [Add V] [Sub V]

theorem getDisp_inner (map : List (CIdx × IMat)) (prio : List (CIdx × SMat V)) (master : List V) :
    InnerRel (fun (_ _ : Unit) => True) (· = ·) (getDisp map prio master) (getDisp map prio master) where
  list := by intro l l' h; rw [List.forall₂_eq_eq_eq] at h; rw [h]
  dict := by
    intro l l' h
    have : l = l' := by
      induction h with
      | nil => rfl
      | @cons x y _ _ hxy _ ih => rw [ih, Prod.ext hxy.1 hxy.2]
    rw [this]
  call := by
    intro inner pay pay' c x e u u' _
    simp only [getDisp, ex, M.lift]
    cases getCall map prio master c x e with
    | error e => exact ⟨rfl, trivial⟩
    | ok m => exact ⟨rfl, trivial⟩
  outer := by
    rintro inner f pay pay' c r _ rfl u u' _
    simp only [getDisp, ex, M.lift]
    cases f.onVal r with
    | error e => exact ⟨rfl, trivial⟩
    | ok m => exact ⟨rfl, trivial⟩

/-- **C79** (reading): at a struct, a nested struct or an entry some of whose repeat indices are still to come, a callable in
the power index is applied to what the rest of the index reads: `s[a, f, r] = f(s[a, r])`; if the rest or `f` raises, so does
the whole. -/
theorem C79_read (o : Obj V) (hwf : WFs o.cs.struct.entries o.cs.struct.order) (a : CIdx)
    (ha : Pending o.cs.struct.entries o.cs.struct.order a) (f : PyFn V) (r : List (PIdx (PyFn V))) :
    o.getitem (a.map .ofKey ++ .fn f :: r) =
      ((o.getitem (a.map .ofKey ++ r)).bind f.onVal).mapError fun _ => .generic := by
  obtain ⟨t, t', h1, h2, h3, h4, hin⟩ := ha.trav hwf (getDisp o.cs.map o.prio o.master) (getDisp o.cs.map o.prio o.master)
  rw [Obj.getitem_eq, Obj.getitem_eq, Struct.keys, h1, h1, h3]
  have e1 : (t r true a .none ()).1 = (t' r false a .none ()).1 := by
    have := hin _ _ (getDisp_inner _ _ _) r false a .none .none (.inl rfl) (.inl rfl) () () trivial
    rcases hx : t r true a .none () with ⟨x, u⟩
    rcases hy : t' r false a .none () with ⟨y, u'⟩
    rw [hx, hy] at this
    cases x <;> cases y <;> simp_all [RRel]
  have e2 : t' r false a .none = t r false a .none := by rw [← h1, ← h2]
  rw [e2] at e1
  refine (gen_bind_fn (t r true a .none) f.onVal).trans ?_
  rw [e1]

/-- **C79** (elements): at an element (not of type 'symm') a callable is applied to the index matrix: `s[a, f, r]` is the part
of the vector at the positions `f(s.i[a, r])`, with the pattern of that matrix. -/
theorem C79_element (s : Struct) (hwf : WFs s.entries s.order) (c : CS) (hc : CS.ofStruct s = .ok c) (master : List V)
    (hlen : master.length = c.size) (a : CIdx) (p : Prim) (ha : IsLeaf s.entries a p) (hs : p.symm = false)
    (f : PyFn V) (r : List (PIdx (PyFn V))) (i j : IMat) (hi : c.i (a.map .ofKey ++ r) = .ok (.leaf i))
    (hj : f.onIdx (.leaf i) = .ok j) (hin : ∀ k ∈ j.data, k < c.size) :
    c.i (a.map .ofKey ++ .fn f :: r) = .ok (.leaf j) ∧
      (⟨c, master, []⟩ : Obj V).getitem (a.map .ofKey ++ .fn f :: r) =
        .ok (.leaf ⟨j.sp, j.data.map fun k => master.getD k 0⟩) := by
  obtain ⟨c', ls, hc', rfl, hb⟩ := ofStruct_built hwf
  rw [hc] at hc'
  cases hc'
  have hcall := imCall_of_i hwf (.leaf ha) (by simp) hi
  have hcall' : imCall applyIdx c.map a (some (.fn f :: r)) (some p) = .ok j := by
    rw [imCall] at hcall ⊢
    cases hg : dictGet c.map a with
    | none => rw [hg] at hcall; cases hcall
    | some m =>
      rw [hg] at hcall
      simp only [Option.getD_some] at hcall ⊢
      rw [performExtraIndex, hcall]
      exact hj
  refine ⟨?_, ?_⟩
  · rw [c.i_part hwf (.leaf ha) _ (by simp), hcall']
    rfl
  · rw [Obj.getitem_part _ hwf (.leaf ha) _ (by simp)]
    simp only
    rw [getCall_plain _ _ _ _ _ (by rintro _ ⟨⟩; exact hs) hcall', gather_ok (by rw [hlen]; exact hin)]
    rfl

end

theorem imDisp_inner (map : List (CIdx × IMat)) :
    InnerRel (fun (_ _ : Unit) => True) (· = ·) (imDisp (V := V) map) (imDisp map) where
  list := by intro l l' h; rw [List.forall₂_eq_eq_eq] at h; rw [h]
  dict := by
    intro l l' h
    have : l = l' := by
      induction h with
      | nil => rfl
      | @cons x y _ _ hxy _ ih => rw [ih, Prod.ext hxy.1 hxy.2]
    rw [this]
  call := by
    intro inner pay pay' c x e u u' _
    simp only [imDisp, ex, M.lift]
    cases imCall applyIdx map c x e with
    | error e => exact ⟨rfl, trivial⟩
    | ok m => exact ⟨rfl, trivial⟩
  outer := by
    rintro inner f pay pay' c r _ rfl u u' _
    simp only [imDisp, ex, M.lift]
    cases f.onIdx r with
    | error e => exact ⟨rfl, trivial⟩
    | ok m => exact ⟨rfl, trivial⟩

theorem CS.i_eq (c : CS) (pi : List (PIdx (PyFn V))) :
    c.i pi = gen (goStruct (imDisp (V := V) c.map) c.struct.keys (travTable (imDisp c.map) c.struct.entries) pi false []
      .none ()).1 := by
  rw [CS.i, Struct.traverse_fst]

/-- **C79** (index matrices): `s.i[a, f, r] = f(s.i[a, r])`. -/
theorem C79_index (c : CS) (hwf : WFs c.struct.entries c.struct.order) (a : CIdx)
    (ha : Pending c.struct.entries c.struct.order a) (f : PyFn V) (r : List (PIdx (PyFn V))) :
    c.i (a.map .ofKey ++ .fn f :: r) =
      ((c.i (a.map .ofKey ++ r)).bind fun t => (f.onIdx t).map .leaf).mapError fun _ => .generic := by
  obtain ⟨t, t', h1, h2, h3, h4, hin⟩ := ha.trav hwf (imDisp (V := V) c.map) (imDisp (V := V) c.map)
  rw [CS.i_eq, CS.i_eq, Struct.keys, h1, h1, h3]
  have e1 : (t r true a .none ()).1 = (t' r false a .none ()).1 := by
    have := hin _ _ (imDisp_inner _) r false a .none .none (.inl rfl) (.inl rfl) () () trivial
    rcases hx : t r true a .none () with ⟨x, u⟩
    rcases hy : t' r false a .none () with ⟨y, u'⟩
    rw [hx, hy] at this
    cases x <;> cases y <;> simp_all [RRel]
  have e2 : t' r false a .none = t r false a .none := by rw [← h1, ← h2]
  rw [e2] at e1
  refine (gen_bind_fn (t r true a .none) fun t => (f.onIdx t).map .leaf).trans ?_
  rw [e1]

theorem CS.i_at (c : CS) (hwf : WFs c.struct.entries c.struct.order) {a es' o'}
    (h : IsAt c.struct.entries c.struct.order a es' o') {e : Entry} (he : e ∈ es') {ks : CIdx} {ds1 ds2 : List ℕ}
    (hds : e.dims = ds1 ++ ds2) (hks : InDims ks ds1) (rest : List (PIdx (PyFn V))) :
    c.i ((a ++ .str e.name :: ks).map .ofKey ++ rest) =
      gen (goEntry (imDisp (V := V) c.map) (Entry.leafTrav (imDisp c.map) e) ds2 rest false
        (a ++ .str e.name :: ks) .none ()).1 := by
  rw [CS.i_eq, Struct.keys, goStruct_at_entry _ hwf h he hds hks]
  rfl

/-- **C45** (slices and lists of integers in `s.i`): `s.i[..., 'x', ..., sel, ...]` is the list of `s.i[..., 'x', ..., i, ...]`
over the selected `i`. -/
theorem C45_index_select [Zero V] [Add V] [Sub V] (c : CS) (hwf : WFs c.struct.entries c.struct.order) (a : CIdx) (es' : List Entry)
    (o' : List OrderItem) (h : IsAt c.struct.entries c.struct.order a es' o') (e : Entry) (he : e ∈ es') (ks : CIdx)
    (ds1 ds2 : List ℕ) (d : ℕ) (hds : e.dims = ds1 ++ d :: ds2) (hks : InDims ks ds1) (rest : List (PIdx (PyFn V)))
    (sel : PIdx (PyFn V)) (is : List ℤ) (hsel : Selects sel d is) :
    c.i ((a ++ .str e.name :: ks).map .ofKey ++ sel :: rest) =
      (is.mapM fun i => c.i ((a ++ .str e.name :: ks).map .ofKey ++ .int i :: rest)).map .list := by
  simp only [c.i_at hwf h he hds hks]
  rw [goEntry_selects _ _ _ _ hsel]
  exact getLoop (V := V) is _

/-- **C45** (no index in `s.i`): with repeat indices left over `s.i` gives the list over all repetitions. -/
theorem C45_index_all [Zero V] [Add V] [Sub V] (c : CS) (hwf : WFs c.struct.entries c.struct.order) (a : CIdx) (es' : List Entry)
    (o' : List OrderItem) (h : IsAt c.struct.entries c.struct.order a es' o') (e : Entry) (he : e ∈ es') (ks : CIdx)
    (ds1 ds2 : List ℕ) (d : ℕ) (hds : e.dims = ds1 ++ d :: ds2) (hks : InDims ks ds1) :
    c.i (V := V) ((a ++ .str e.name :: ks).map .ofKey) =
      (((List.range d).map fun i : ℕ => (i : ℤ)).mapM fun i =>
        c.i (V := V) ((a ++ .str e.name :: ks).map .ofKey ++ [.int i])).map .list := by
  have := c.i_at (V := V) hwf h he hds hks []
  rw [List.append_nil] at this
  rw [this]
  simp only [c.i_at hwf h he hds hks]
  rw [goEntry_pending]
  exact getLoop (V := V) _ _

section
variable [Zero V]

/-- An assignment through a callable: the positions are those of the index matrix that the callable makes of `s.i`. -/
theorem setitem_fn (o : Obj V) (hwf : WFs o.cs.struct.entries o.cs.struct.order) {a : CIdx}
    (ha : Pending o.cs.struct.entries o.cs.struct.order a) (f : PyFn V) (r : List (PIdx (PyFn V))) {pay : Pay V}
    (hp : Plain pay) :
    o.setitem (a.map .ofKey ++ .fn f :: r) pay = match o.cs.i (a.map .ofKey ++ r) with
      | .error _ => (.error .generic, o)
      | .ok t => match f.onIdx t with
        | .error _ => (.error .generic, o)
        | .ok i => match pay.toMat with
          | .error _ => (.error .generic, o)
          | .ok v => match assign o.master i v with
            | .error _ => (.error .generic, o)
            | .ok m => (.ok (), { o with master := m }) := by
  obtain ⟨t, t', h1, h2, h3, h4, hin⟩ := ha.trav hwf (setDisp o.cs.map) (imDisp (V := V) o.cs.map)
  rw [Obj.setitem_eq, CS.i_eq, Struct.keys, h1, h2, h3]
  have hrel := hin _ _ (setDisp_inner o.cs.map o.master) r false a pay .none hp (.inl rfl) o.master () rfl
  simp only [M.bind]
  rcases hx : t r true a pay o.master with ⟨x, m⟩
  rcases hy : t' r false a .none () with ⟨y, u'⟩
  rw [hx, hy] at hrel
  cases x with
  | error e =>
    cases y with
    | ok b => exact hrel.elim
    | error e' =>
      obtain ⟨-, rfl⟩ := hrel
      rfl
  | ok x =>
    cases y with
    | error e' => exact hrel.elim
    | ok y =>
      obtain ⟨hr, rfl⟩ := hrel
      simp only
      rw [setDisp_outer o.cs.map false f pay a hr]
      simp only [gen]
      cases f.onIdx y with
      | error e => rfl
      | ok i =>
        simp only [Bool.false_eq_true, if_false]
        cases pay.toMat with
        | error e => rfl
        | ok v =>
          simp only
          cases assign o.master i v <;> rfl

/-- **C79** (writing; partial: the value is a matrix or a number; false for lists, see `C79_refuted_list`):
`s[a, f, r] = v` writes `v` to the positions `f(s.i[a, r])` (distinct positions that `v` fits) and changes nothing else; if
`s.i[a, r]` or `f` raises, it raises and nothing changes. -/
theorem C79_write_partial (o : Obj V) (hwf : WFs o.cs.struct.entries o.cs.struct.order) (a : CIdx)
    (ha : Pending o.cs.struct.entries o.cs.struct.order a) (f : PyFn V) (r : List (PIdx (PyFn V))) (pay : Pay V) (v : SMat V)
    (hp : pay = .mat v ∨ ∃ x, pay = .num x ∧ v = ⟨.dense 1 1, [x]⟩) :
    (∀ t i g, o.cs.i (a.map .ofKey ++ r) = .ok t → f.onIdx t = .ok i → i.WF → i.data.Nodup →
      (∀ k ∈ i.data, k < o.master.length) → v.WF → Fits i.sp v g →
      ∃ m, o.setitem (a.map .ofKey ++ .fn f :: r) pay = (.ok (), { o with master := m }) ∧ m.length = o.master.length ∧
        i.data.map (fun k => m.getD k 0) = i.sp.nz.map g ∧ ∀ k ∉ i.data, m[k]? = o.master[k]?) ∧
    (∀ t i k, o.cs.i (a.map .ofKey ++ r) = .ok t → f.onIdx t = .ok i → k ∈ i.data → o.master.length ≤ k →
      o.setitem (a.map .ofKey ++ .fn f :: r) pay = (.error .generic, o)) ∧
    (∀ t e, o.cs.i (a.map .ofKey ++ r) = .ok t → f.onIdx t = .error e →
      o.setitem (a.map .ofKey ++ .fn f :: r) pay = (.error .generic, o)) ∧
    (∀ e, o.cs.i (a.map .ofKey ++ r) = .error e →
      o.setitem (a.map .ofKey ++ .fn f :: r) pay = (.error .generic, o)) := by
  have hpl : Plain pay := by
    rcases hp with rfl | ⟨x, rfl, _⟩
    · exact .inr (.inr ⟨_, rfl⟩)
    · exact .inr (.inl ⟨_, rfl⟩)
  have hv : pay.toMat = .ok v := by
    rcases hp with rfl | ⟨x, rfl, rfl⟩ <;> rfl
  rw [setitem_fn o hwf ha f r hpl]
  refine ⟨?_, ?_, ?_, ?_⟩
  · intro t i g hi hf hw hnd hin hvw hfit
    obtain ⟨m, h1, h2, h3, h4⟩ := assign_spec (master := o.master) hw.2 hnd hin (written_of_fits hw hvw hfit)
    refine ⟨m, ?_, h2, ?_, h4⟩
    · rw [hi]
      simp only [hf, hv, h1]
    · rw [gather_ok (by rw [h2]; exact hin)] at h3
      have h5 := Except.ok.inj h3
      have := congrArg SMat.data h5
      simpa [SMat.mapData] using this
  · intro t i k hi hf hk hlt
    rw [hi]
    simp only [hf, hv]
    rw [assign, if_pos]
    rw [List.any_eq_true]
    exact ⟨k, hk, by simpa using hlt⟩
  · intro t e hi hf
    rw [hi]
    simp only [hf]
  · intro e hi
    rw [hi]

end

/-! ### Examples -/

/-- The elements of a matrix. -/
def leafData {α : Type} : Tree (SMat α) → Except PyErr (List α)
  | .leaf m => .ok m.data
  | _ => .error .type

/-- `lambda l: vertcat(*l)` for a list of columns. -/
def stackCols {α : Type} : Tree (SMat α) → Except PyErr (SMat α)
  | .list l => (l.mapM leafData).map fun ds => SMat.col ds.flatten
  | _ => .error .type

/-- The callable `lambda l: vertcat(*l)`. -/
def stackFn : PyFn ℚ := ⟨fun t => (stackCols t).map .leaf, stackCols⟩

/-- The positions of the entries of `groupStruct`, which alternate in the vector. -/
theorem groupStruct_i : ∃ c, CS.ofStruct groupStruct = .ok c ∧ c.struct = groupStruct ∧ c.size = 4 ∧
    (∀ j : ℕ, j < 2 → c.i (V := ℚ) [.str "a", .int j] = .ok (.leaf ⟨.dense 1 1, [2 * j]⟩)) ∧
    c.i (V := ℚ) [.str "a"] = .ok (.list [.leaf ⟨.dense 1 1, [0]⟩, .leaf ⟨.dense 1 1, [2]⟩]) := by
  obtain ⟨c, ls, h1, h2, hb⟩ := ofStruct_built groupStruct_wf
  have hwf' : WFs c.struct.entries c.struct.order := by rw [h2]; exact groupStruct_wf
  have hs : c.size = 4 := by rw [hb.size_eq hwf', h2]; rfl
  have htops : tops c.struct.entries c.struct.order = [[.str "a", .int 0], [.str "b", .int 0], [.str "a", .int 1],
      [.str "b", .int 1]] := by rw [h2]; decide
  have hea : Entry.prim "a" [2] ⟨.dense 1 1, false, none, none⟩ ∈ c.struct.entries := by rw [h2]; exact List.mem_cons_self
  have hd : ∀ i : ℕ, i < 2 → InDims [.int i] [2] := fun i hi => .cons ⟨i, hi, rfl⟩ .nil
  have g : ∀ j : ℕ, j < 2 → dictGet c.map [.str "a", .int j] = some ⟨.dense 1 1, [2 * j]⟩ := by
    intro j hj
    have : j = 0 ∨ j = 1 := by omega
    rcases this with rfl | rfl
    · refine (hb.top_pos hwf' hea (hd 0 (by decide)) (A := []) (B := _) htops).trans ?_
      simp only [h2]
      rfl
    · refine (hb.top_pos hwf' hea (hd 1 (by decide)) (A := [[.str "a", .int 0], [.str "b", .int 0]]) (B := _) htops).trans ?_
      simp only [h2]
      rfl
  have hi : ∀ j : ℕ, j < 2 → c.i (V := ℚ) [.str "a", .int j] = .ok (.leaf ⟨.dense 1 1, [2 * j]⟩) := by
    intro j hj
    have := c.i_leaf (V := ℚ) hwf' (.prim hea (hd j hj))
    rw [g j hj] at this
    exact this
  refine ⟨c, h1, h2, hs, hi, ?_⟩
  refine (C45_index_all (V := ℚ) c hwf' [] _ _ .root _ hea [] [] [] 2 rfl .nil).trans ?_
  show Except.map Tree.list (Except.bind (c.i [.str "a", .int (0 : ℕ)]) _) = _
  rw [hi 0 (by decide)]
  show Except.map Tree.list (Except.bind (c.i [.str "a", .int (1 : ℕ)]) _) = _
  rw [hi 1 (by decide)]
  rfl

/-- `s[vertcat, 'a'] = [5, 6]` for a struct with `a` and `b` alternating, and `s[vertcat, 'a']` afterwards. -/
example : ∃ c, CS.ofStruct groupStruct = .ok c ∧ ∀ m : List ℚ, m.length = 4 → ∃ m',
    (⟨c, m, []⟩ : Obj ℚ).setitem [.fn stackFn, .str "a"] (.mat (.col [5, 6])) = (.ok (), ⟨c, m', []⟩) ∧
      m'.getD 0 0 = 5 ∧ m'[1]? = m[1]? ∧ m'.getD 2 0 = 6 ∧ m'[3]? = m[3]? := by
  obtain ⟨c, hc, h2, hs, -, hi⟩ := groupStruct_i
  refine ⟨c, hc, fun m hm => ?_⟩
  have hwf' : WFs c.struct.entries c.struct.order := by rw [h2]; exact groupStruct_wf
  obtain ⟨m', h1, -, h3, h4⟩ := (C79_write_partial (⟨c, m, []⟩ : Obj ℚ) hwf' [] (.struct .root) stackFn [.str "a"]
    (.mat (.col [5, 6])) (.col [5, 6]) (.inl rfl)).1 _ ⟨.dense 2 1, [0, 2]⟩ _ hi rfl ⟨Sparsity.dense_canon _ _, rfl⟩ (by decide)
    (by simp only; rw [hm]; decide) ⟨Sparsity.dense_canon _ _, rfl⟩ (.same rfl rfl)
  refine ⟨m', h1, ?_, h4 1 (by decide), ?_, h4 3 (by decide)⟩
  · have := congrArg (fun l => l.getD 0 0) h3
    exact this
  · have := congrArg (fun l => l.getD 1 0) h3
    exact this

/-- **C79** (counterexample): a list is also handed down to the positions below the callable: `s[f, 'a', [1]] = [7]` raises
although `f(s.i['a', [1]])` is a single position of the vector (and `s[f, 'a', [1]] = 7` is accepted). -/
theorem C79_refuted_list : ∃ (c : CS) (i : IMat) (t : Tree IMat), CS.ofStruct groupStruct = .ok c ∧
    c.i (V := ℚ) [.str "a", .list [.int 1]] = .ok t ∧ stackFn.onIdx t = .ok i ∧ i = ⟨.dense 1 1, [2]⟩ ∧
    ∀ m : List ℚ, m.length = c.size →
      (⟨c, m, []⟩ : Obj ℚ).setitem [.fn stackFn, .str "a", .list [.int 1]] (.list [.num 7]) = (.error .generic, ⟨c, m, []⟩) ∧
      ∃ m', (⟨c, m, []⟩ : Obj ℚ).setitem [.fn stackFn, .str "a", .list [.int 1]] (.num 7) = (.ok (), ⟨c, m', []⟩) ∧
        m'.getD 2 0 = 7 := by
  obtain ⟨c, hc, h2, hs, hi, -⟩ := groupStruct_i
  have hwf' : WFs c.struct.entries c.struct.order := by rw [h2]; exact groupStruct_wf
  have hea : Entry.prim "a" [2] ⟨.dense 1 1, false, none, none⟩ ∈ c.struct.entries := by rw [h2]; exact List.mem_cons_self
  have hidx : c.i (V := ℚ) [.str "a", .list [.int 1]] = .ok (.list [.leaf ⟨.dense 1 1, [2]⟩]) := by
    refine (C45_index_select (V := ℚ) c hwf' [] _ _ .root _ hea [] [] [] 2 rfl .nil [] (.list [.int 1]) [1]
      (.list (is := [1]))).trans ?_
    show Except.map Tree.list (Except.bind (c.i [.str "a", .int (1 : ℕ)]) _) = _
    rw [hi 1 (by decide)]
    rfl
  refine ⟨c, ⟨.dense 1 1, [2]⟩, _, hc, hidx, rfl, rfl, fun m hm => ⟨?_, ?_⟩⟩
  · rw [Obj.setitem_eq]
    have : goStruct (setDisp (V := ℚ) c.map) c.struct.keys (travTable (setDisp c.map) c.struct.entries)
        [.fn stackFn, .str "a", .list [.int 1]] false [] (.list [.num 7]) m = (.error .generic, m) := by
      rw [goStruct, M.bind, show "a" = (Entry.prim "a" [2] ⟨.dense 1 1, false, none, none⟩).name from rfl,
        goStruct_entry _ _ hwf'.nodup hea]
      have := goEntry_list (setDisp (V := ℚ) c.map) (Entry.leafTrav (setDisp c.map)
        (.prim "a" [2] ⟨.dense 1 1, false, none, none⟩)) 2 [] [1] [] true [.str "a"] (.list [.num 7])
      simp only [List.map_cons, List.map_nil] at this
      simp only [Entry.dims, Entry.name, List.nil_append]
      rw [this]
      rfl
    simp only [this]
    rfl
  · obtain ⟨m', h1, -, h3, -⟩ := (C79_write_partial (⟨c, m, []⟩ : Obj ℚ) hwf' [] (.struct .root) stackFn
      [.str "a", .list [.int 1]] (.num 7) ⟨.dense 1 1, [7]⟩ (.inr ⟨7, rfl, rfl⟩)).1 _ ⟨.dense 1 1, [2]⟩ _ hidx rfl
      ⟨Sparsity.dense_canon _ _, rfl⟩ (by decide) (by simp only; rw [hm, hs]; decide) ⟨Sparsity.dense_canon _ _, rfl⟩
      (.same rfl rfl)
    refine ⟨m', h1, ?_⟩
    have := congrArg (fun l => l.getD 0 0) h3
    exact this

/-- `s['a', sum]`-like callables: `s['a', vertcat]` reads the column of all repetitions. -/
example (c : CS) (hc : CS.ofStruct groupStruct = .ok c) (x y z w : ℚ) :
    (⟨c, [x, y, z, w], []⟩ : Obj ℚ).getitem [.str "a", .fn stackFn] = .ok (.leaf (.col [x, z])) := by
  obtain ⟨c', hc', h2, hs, hi, -⟩ := groupStruct_i
  rw [hc] at hc'
  cases hc'
  have hwf' : WFs c.struct.entries c.struct.order := by rw [h2]; exact groupStruct_wf
  have hea : Entry.prim "a" [2] ⟨.dense 1 1, false, none, none⟩ ∈ c.struct.entries := by rw [h2]; exact List.mem_cons_self
  have hel : ∀ j : ℕ, j < 2 → (⟨c, [x, y, z, w], []⟩ : Obj ℚ).getitem [.str "a", .int j] =
      .ok (.leaf ⟨.dense 1 1, [[x, y, z, w].getD (2 * j) 0]⟩) := by
    intro j hj
    obtain ⟨c', ls, hc', hcs, hb⟩ := ofStruct_built groupStruct_wf
    rw [hc] at hc'
    cases hc'
    have hleaf : IsLeaf c.struct.entries [.str "a", .int j] ⟨.dense 1 1, false, none, none⟩ :=
      .prim hea (.cons ⟨j, hj, rfl⟩ .nil)
    obtain ⟨i, hg, _, _, _, _, hr⟩ := getitem_plain (V := ℚ) hb hwf' (master := [x, y, z, w]) (by rw [hs]; rfl) (.leaf hleaf)
      (by rintro _ ⟨⟩; rfl)
    have h3 := c.i_leaf (V := ℚ) hwf' hleaf
    rw [hg] at h3
    have h4 := h3.symm.trans (hi j hj)
    simp only [Except.ok.injEq, Tree.leaf.injEq] at h4
    subst h4
    exact hr
  refine (C79_read (⟨c, [x, y, z, w], []⟩ : Obj ℚ) hwf' [.str "a"] (.entry (a := []) (ks := []) (ds1 := []) .root hea rfl .nil)
    stackFn []).trans ?_
  have hall := C45_all (⟨c, [x, y, z, w], []⟩ : Obj ℚ) hwf' [] _ _ .root _ hea [] [] [] 2 rfl .nil
  have : (⟨c, [x, y, z, w], []⟩ : Obj ℚ).getitem [.str "a"] =
      .ok (.list [.leaf ⟨.dense 1 1, [x]⟩, .leaf ⟨.dense 1 1, [z]⟩]) := by
    refine hall.trans ?_
    show Except.map Tree.list (Except.bind ((⟨c, [x, y, z, w], []⟩ : Obj ℚ).getitem [.str "a", .int (0 : ℕ)]) _) = _
    rw [hel 0 (by decide)]
    show Except.map Tree.list (Except.bind
      ((⟨c, [x, y, z, w], []⟩ : Obj ℚ).getitem [.str "a", .int (1 : ℕ)]) _) = _
    rw [hel 1 (by decide)]
    rfl
  show ((((⟨c, [x, y, z, w], []⟩ : Obj ℚ).getitem [.str "a"]).bind stackFn.onVal).mapError fun _ => PyErr.generic) = _
  rw [this]
  rfl

/-- `s.i['a', ::-1]` and `s.i['a']` for the struct with `a` and `b` alternating. -/
example : ∃ c, CS.ofStruct groupStruct = .ok c ∧ c.i (V := ℚ) [.str "a", .slice none none (some (-1))] =
      ([1, 0].mapM fun i => c.i (V := ℚ) [.str "a", .int i]).map .list ∧
    c.i (V := ℚ) [.str "a"] = ([0, 1].mapM fun i => c.i (V := ℚ) [.str "a", .int i]).map .list := by
  obtain ⟨c, hc, h2, hs, -, -⟩ := groupStruct_i
  have hwf' : WFs c.struct.entries c.struct.order := by rw [h2]; exact groupStruct_wf
  have he : Entry.prim "a" [2] ⟨.dense 1 1, false, none, none⟩ ∈ groupStruct.entries := List.mem_cons_self
  have hr : IsAt c.struct.entries c.struct.order [] groupStruct.entries groupStruct.order := by rw [h2]; exact .root
  exact ⟨c, hc, C45_index_select (V := ℚ) c hwf' [] _ _ hr _ he [] [] [] 2 rfl .nil [] _ [1, 0] (.slice (by decide)),
    C45_index_all (V := ℚ) c hwf' [] _ _ hr _ he [] [] [] 2 rfl .nil⟩

end CE.St
