import Verif.Struct.PropsSymm
import Verif.Struct.PropsRepeat
import Verif.Struct.LemPrefix
import Verif.Struct.PropsCallable
import Verif.Struct.PropsVeccat

/-!
# Lists of names: property C129 (structure3.py:409-417)

`s[["x", "y"]]` should be `[s["x"], s["y"]]`.  The code continues with the struct itself and not with its entries `x` and `y`, so
that the repeat counts and the type of the entries are not seen, and further indices are taken to be indices of the struct.
-/

namespace CE.St

/-- What a primitive entry carries. -/
def Entry.prim? : Entry → Option Prim
  | .prim _ _ p => some p
  | .nested .. => none

/-- An entry without repeat and without type symm. -/
def Entry.Single (e : Entry) : Prop := e.dims = [] ∧ ∀ p, e.prim? = some p → p.symm = false

/-- A list of names as an index. -/
def nameList {F : Type} (l : List Entry) : PIdx F := .list (l.map fun e => .str e.name)

section
variable {σ V F R : Type}

theorem goStruct_single (d : Disp σ V F R) {es o a es' o'} (hwf : WFs es o) (h : IsAt es o a es' o') {e : Entry}
    (he : e ∈ es') (hd : e.dims = []) (inner : Bool) (c : CIdx) (pay : Pay V) :
    goStruct d (o.flatMap OrderItem.names) (travTable d es) ((a ++ [Key.str e.name]).map .ofKey) inner c pay =
      M.bind (d.call inner pay (c ++ (a ++ [.str e.name])) none e.prim?) fun r => M.pure (.leaf r) := by
  have := goStruct_at_entry d hwf h he (ks := []) (ds1 := []) (ds2 := []) hd .nil [] inner c pay
  rw [List.append_nil] at this
  rw [this, goEntry_nil]
  cases e <;> rfl

theorem goStruct_names (d : Disp σ V F R) {es o a es' o'} (hwf : WFs es o) (h : IsAt es o a es' o') (l : List Entry)
    (rest : List (PIdx F)) (inner : Bool) (c : CIdx) (pay : Pay V) :
    goStruct d (o.flatMap OrderItem.names) (travTable d es) (a.map .ofKey ++ nameList l :: rest) inner c pay =
      M.bind (M.forEach l.zipIdx fun ei =>
        M.bind (ex (payloadUnpack pay (.int ei.2))) fun pay' =>
          goStruct d (o'.flatMap OrderItem.names) (travTable d es') rest inner (c ++ (a ++ [.str ei.1.name])) pay')
        fun r => M.pure (.list r) := by
  rw [goStruct_at d hwf h, nameList, goStruct]
  congr 1
  have : (l.map fun e => Key.str e.name).zipIdx = l.zipIdx.map fun ei => (Key.str ei.1.name, ei.2) := by
    rw [List.zipIdx_map]; rfl
  rw [this]
  generalize l.zipIdx = L
  induction L with
  | nil => rfl
  | cons x L ih => rw [List.map_cons, M.forEach, M.forEach, ih, List.append_assoc]

/-- A list of names at the end of the index: one call of the dispatcher for each name, without an entry. -/
theorem goStruct_names_last (d : Disp σ V F R) {es o a es' o'} (hwf : WFs es o) (h : IsAt es o a es' o') (l : List Entry)
    (inner : Bool) (c : CIdx) (pay : Pay V) :
    goStruct d (o.flatMap OrderItem.names) (travTable d es) (a.map .ofKey ++ [nameList l]) inner c pay =
      M.bind (M.forEach l.zipIdx fun ei =>
        M.bind (ex (payloadUnpack pay (.int ei.2))) fun pay' =>
          M.bind (d.call inner pay' (c ++ (a ++ [.str ei.1.name])) none none) fun r => M.pure (.leaf r))
        fun r => M.pure (.list r) := by
  rw [goStruct_names d hwf h]
  rfl

end

section
variable {V : Type}

theorem zipIdx_mapM {α β : Type} (l : List α) (k : ℕ) (f : α → Except PyErr β) :
    (l.zipIdx k).mapM (fun x => f x.1) = l.mapM f := by
  induction l generalizing k with
  | nil => rfl
  | cons a l ih => rw [List.zipIdx_cons, List.mapM_cons, List.mapM_cons, ih]

/-- A loop over names while reading. -/
theorem nameLoop {R : Type} (l : List Entry) (g : Entry → M Unit (Tree R)) :
    gen (M.bind (M.forEach l.zipIdx fun ei => M.bind (ex (payloadUnpack (V := V) .none (.int ei.2))) fun _ => g ei.1)
      (fun r => M.pure (Tree.list r)) ()).1 = (l.mapM fun e => gen (g e ()).1).map .list := by
  have h1 : (M.forEach l.zipIdx fun ei : Entry × ℕ => M.bind (ex (payloadUnpack (V := V) .none (.int ei.2))) fun _ => g ei.1) =
      M.forEach l.zipIdx fun ei => g ei.1 := M.forEach_congr _ _ _ fun i _ => rfl
  rw [h1, ← zipIdx_mapM l 0, ← M.forEach_unit, M.bind]
  rcases M.forEach l.zipIdx (fun ei => g ei.1) () with ⟨r, u⟩
  cases r <;> rfl

theorem mapM_congr' {α β : Type} {l : List α} {f g : α → Except PyErr β} (h : ∀ a ∈ l, f a = g a) : l.mapM f = l.mapM g := by
  induction l with
  | nil => rfl
  | cons a l ih =>
    rw [List.mapM_cons, List.mapM_cons, h a List.mem_cons_self, ih fun b hb => h b (List.mem_cons_of_mem _ hb)]

/-- **C129** (reading): `s[..., ["x", "y"]]` is `[s[..., "x"], s[..., "y"]]` for entries without repeat and without type symm, at any
depth.  Missing for the full claim: the other entries, for which it is false (`C129_repeated`, `C129_symm`), and further indices
(`C129_rest`). -/
theorem C129_read_partial [Zero V] [Add V] [Sub V] (o : Obj V) (hwf : WFs o.cs.struct.entries o.cs.struct.order) (a : CIdx)
    (es' : List Entry) (o' : List OrderItem) (h : IsAt o.cs.struct.entries o.cs.struct.order a es' o') (l : List Entry)
    (hl : ∀ e ∈ l, e ∈ es' ∧ e.Single) :
    o.getitem (a.map .ofKey ++ [nameList l]) =
      (l.mapM fun e => o.getitem ((a ++ [Key.str e.name]).map .ofKey)).map .list := by
  simp only [Obj.getitem_eq]
  rw [Struct.keys, goStruct_names_last _ hwf h]
  refine (nameLoop (V := V) l fun e => M.bind ((getDisp o.cs.map o.prio o.master).call false .none ([] ++ (a ++ [.str e.name])) none
    none) fun r => M.pure (.leaf r)).trans ?_
  congr 1
  apply mapM_congr'
  intro e he
  obtain ⟨he', hd, hs⟩ := hl e he
  rw [goStruct_single _ hwf h he' hd]
  congr 1
  have : ∀ c, getCall o.cs.map o.prio o.master c none e.prim? = getCall o.cs.map o.prio o.master c none none := by
    intro c
    rcases hp : e.prim? with _ | p
    · rfl
    · unfold getCall
      simp only [hs p hp]
      rcases dictGet o.cs.map c with _ | m
      · rfl
      · rcases dictGet o.prio c with _ | r <;> rfl
  simp only [getDisp, this]

/-- **C129** (`s.i`): the indices of `["x", "y"]` are those of `x` and of `y`, for all entries without repeat. -/
theorem C129_index (c : CS) (hwf : WFs c.struct.entries c.struct.order) (a : CIdx)
    (es' : List Entry) (o' : List OrderItem) (h : IsAt c.struct.entries c.struct.order a es' o') (l : List Entry)
    (hl : ∀ e ∈ l, e ∈ es' ∧ e.dims = []) :
    c.i (V := V) (a.map .ofKey ++ [nameList l]) =
      (l.mapM fun e => c.i (V := V) ((a ++ [Key.str e.name]).map .ofKey)).map .list := by
  simp only [CS.i, Struct.traverse_fst]
  rw [Struct.keys, goStruct_names_last _ hwf h]
  refine (nameLoop (V := V) l fun e => M.bind ((imDisp (V := V) c.map).call false .none ([] ++ (a ++ [.str e.name])) none
    none) fun r => M.pure (.leaf r)).trans ?_
  congr 1
  apply mapM_congr'
  intro e he
  obtain ⟨he', hd⟩ := hl e he
  rw [goStruct_single _ hwf h he' hd]
  rfl

theorem except_map_unit {α β : Type} (x : Except PyErr α) (f : α → β) : (x.map f).map (fun _ => ()) = x.map fun _ => () := by
  cases x <;> rfl

/-- Writing to a list of names when the payload of each is known. -/
theorem setitem_names [Zero V] (o : Obj V) (hwf : WFs o.cs.struct.entries o.cs.struct.order) {a : CIdx}
    {es' : List Entry} {o' : List OrderItem} (h : IsAt o.cs.struct.entries o.cs.struct.order a es' o') (l : List Entry)
    (hl : ∀ e ∈ l, e ∈ es' ∧ e.Single) (pay : Pay V) (v : Entry × ℕ → Pay V)
    (hv : ∀ x ∈ l.zipIdx, payloadUnpack pay (.int x.2) = .ok (v x)) :
    o.setitem (a.map .ofKey ++ [nameList l]) pay =
      o.setAll (l.zipIdx.map fun x => ((a ++ [Key.str x.1.name]).map .ofKey, v x)) := by
  rw [Obj.setitem_eq, Struct.keys, goStruct_names_last _ hwf h]
  simp only
  rw [bind_pure_run]
  have e1 : (M.forEach l.zipIdx fun ei : Entry × ℕ => M.bind (ex (payloadUnpack pay (.int ei.2))) fun pay' =>
      M.bind ((setDisp o.cs.map).call false pay' ([] ++ (a ++ [.str ei.1.name])) none none) fun r => M.pure (Tree.leaf r)) =
      M.forEach l.zipIdx fun ei => M.bind ((setDisp o.cs.map).call false (v ei) (a ++ [.str ei.1.name]) none ei.1.prim?)
        fun r => M.pure (Tree.leaf r) := by
    apply M.forEach_congr
    intro x hx
    obtain ⟨_, _, hs⟩ := hl x.1 (List.fst_mem_of_mem_zipIdx hx)
    rw [hv x hx]
    have : ∀ c, setCall o.cs.map (v x) c none x.1.prim? = setCall o.cs.map (v x) c none none := by
      intro c
      rcases hp : x.1.prim? with _ | ⟨sp, symm, orig, ss⟩
      · rfl
      · have := hs _ hp
        simp only at this
        subst this
        rfl
    simp only [setDisp, this]
    rfl
  rw [e1]
  have := setLoop o l.zipIdx (fun ei => M.bind ((setDisp o.cs.map).call false (v ei) (a ++ [.str ei.1.name]) none ei.1.prim?)
    fun r => M.pure (Tree.leaf r)) (fun x => (a ++ [Key.str x.1.name]).map .ofKey) v
    (fun x hx m => by
      obtain ⟨he, hd, _⟩ := hl x.1 (List.fst_mem_of_mem_zipIdx hx)
      rw [Obj.setitem_eq, Struct.keys, goStruct_single _ hwf h he hd]
      rfl) o.master
  rw [← this, except_map_unit]

theorem zipIdx_zip {α β : Type} (l : List α) (L : List β) (h : l.length = L.length) (w : ℕ → β)
    (k : ℕ) (hw : ∀ i (hi : i < L.length), w (k + i) = L[i]) : (l.zipIdx k).map (fun x => (x.1, w x.2)) = l.zip L := by
  induction l generalizing L k with
  | nil => rfl
  | cons a l ih =>
    cases L with
    | nil => cases h
    | cons b L =>
      rw [List.zipIdx_cons, List.map_cons, List.zip_cons_cons]
      have h0 := hw 0 (by simp)
      rw [ih L (by simpa using h) (k + 1) fun i hi => ?_]
      · simp only [Nat.add_zero, List.getElem_cons_zero] at h0
        rw [h0]
      · have := hw (i + 1) (by simpa using hi)
        rw [List.getElem_cons_succ] at this
        rw [← this]
        congr 1
        omega

/-- **C129** (writing a list): `s[..., ["x", "y"]] = [v, w]` performs `s[..., "x"] = v` and `s[..., "y"] = w` one after another, up to
the first exception, for entries without repeat and without type symm. -/
theorem C129_write_partial [Zero V] (o : Obj V) (hwf : WFs o.cs.struct.entries o.cs.struct.order) (a : CIdx)
    (es' : List Entry) (o' : List OrderItem) (h : IsAt o.cs.struct.entries o.cs.struct.order a es' o') (l : List Entry)
    (hl : ∀ e ∈ l, e ∈ es' ∧ e.Single) (L : List (Pay V)) (hL : l.length = L.length) :
    o.setitem (a.map .ofKey ++ [nameList l]) (.list L) =
      o.setAll ((l.zip L).map fun x => ((a ++ [Key.str x.1.name]).map .ofKey, x.2)) := by
  rw [setitem_names o hwf h l hl (.list L) (fun x => L.getD x.2 .none)]
  · rw [← zipIdx_zip l L hL (fun i => L.getD i .none) 0 fun i hi => by simp [hi], List.map_map]
    rfl
  · intro x hx
    have hlt : x.2 < L.length := by
      have := List.snd_lt_of_mem_zipIdx hx
      omega
    rw [payloadUnpack, if_neg (by omega), pyIndex]
    simp only [if_neg (show ¬ (x.2 : ℤ) < 0 by omega), Int.toNat_natCast, List.getElem?_eq_getElem hlt]
    simp [hlt]

/-- **C129** (writing one value): a number or matrix is written to all the entries named in the list. -/
theorem C129_write_value_partial [Zero V] (o : Obj V) (hwf : WFs o.cs.struct.entries o.cs.struct.order) (a : CIdx)
    (es' : List Entry) (o' : List OrderItem) (h : IsAt o.cs.struct.entries o.cs.struct.order a es' o') (l : List Entry)
    (hl : ∀ e ∈ l, e ∈ es' ∧ e.Single) (pay : Pay V) (hp : (∃ x, pay = .num x) ∨ ∃ m, pay = .mat m) :
    o.setitem (a.map .ofKey ++ [nameList l]) pay = o.setAll (l.map fun e => ((a ++ [Key.str e.name]).map .ofKey, pay)) := by
  rw [setitem_names o hwf h l hl pay (fun _ => pay)]
  · have : l.zipIdx.map (fun x => ((a ++ [Key.str x.1.name]).map (PIdx.ofKey (F := PyFn V)), pay)) =
        (l.zipIdx.map Prod.fst).map fun e => ((a ++ [Key.str e.name]).map .ofKey, pay) := by
      rw [List.map_map]; rfl
    rw [this, List.zipIdx_map_fst]
  · intro x _
    rcases hp with ⟨_, rfl⟩ | ⟨_, rfl⟩ <;> rfl

/-- An entry with repeat counts is not in the map by its name alone. -/
theorem Built.get_repeated {c : CS} {ls} (hb : Built c ls) (hwf : WFs c.struct.entries c.struct.order) {a es' o'}
    (h : IsAt c.struct.entries c.struct.order a es' o') {e : Entry} (he : e ∈ es') (hd : e.dims ≠ []) :
    dictGet c.map (a ++ [.str e.name]) = none := by
  have key : ∀ {b : CIdx} {p}, IsLeaf c.struct.entries (a ++ [.str e.name] ++ b) p →
      (b = [] ∨ ∃ es'' o'', IsNode c.struct.entries (a ++ [.str e.name]) es'' o'') → False := by
    rintro b p hp hh
    have h2 : ∃ ks, InDims ks e.dims ∧ ks = [] := by
      rcases hh with rfl | ⟨es'', o'', hn⟩
      · rw [List.append_nil] at hp
        obtain ⟨e', ks', c', he', hks', e1, _⟩ := (h.leaf_inv hwf hp).decode (h.wf hwf)
        have hn : e.name = e'.name := Key.str.inj (List.cons.inj e1).1
        cases eq_of_name (h.wf hwf).nodup he he' hn
        exact ⟨ks', hks', (List.append_eq_nil_iff.1 (List.cons.inj e1).2.symm).1⟩
      · have hn' : IsNode es' [.str e.name] es'' o'' := by
          cases h with
          | root => exact hn
          | node h => exact h.node_inv hwf (by simp) hn
        generalize hx : [Key.str e.name] = x at hn'
        cases hn' with
        | top he' hks =>
          have hn := Key.str.inj (List.cons.inj hx).1
          cases eq_of_name (h.wf hwf).nodup he he' hn
          exact ⟨_, hks, (List.cons.inj hx).2.symm⟩
        | nested he' hks _ =>
          have hn := Key.str.inj (List.cons.inj hx).1
          cases eq_of_name (h.wf hwf).nodup he he' hn
          exact ⟨_, hks, (List.append_eq_nil_iff.1 (List.cons.inj hx).2.symm).1⟩
    obtain ⟨ks, hks, rfl⟩ := h2
    generalize e.dims = ds at hks hd
    cases hks
    exact hd rfl
  cases hg : dictGet c.map (a ++ [.str e.name]) with
  | none => rfl
  | some m =>
    exfalso
    rw [hb.get] at hg
    split at hg
    · obtain ⟨pre, sp, post, e', _⟩ := mem_layoutOf (mem_of_dictGet hg)
      obtain ⟨p, hp, _⟩ := hb.leaf (a ++ [.str e.name], sp) (by rw [e']; simp)
      exact key (b := []) (by simpa using hp) (.inl rfl)
    · rename_i hne
      obtain ⟨x, hx⟩ := List.exists_mem_of_ne_nil _ hne
      rw [below, List.mem_filterMap] at hx
      obtain ⟨y, hy, e'⟩ := hx
      split at e'
      · rename_i ha
        obtain ⟨pre, sp, post, e'', _⟩ := mem_layoutOf hy
        obtain ⟨p, hp, _⟩ := hb.leaf (y.1, sp) (by rw [e'']; simp)
        obtain ⟨es'', o'', d, hn, _, e3⟩ := (mem_ancestors_tail hwf hp (a ++ [.str e.name])).1 ha
        simp only at hp
        rw [e3] at hp
        exact key hp (.inr ⟨_, _, hn⟩)
      · cases e'

theorem forEach_error {σ α β : Type} (l : List α) (g : α → M σ β) (x : α) (hx : x ∈ l) (hg : ∀ m, ∃ er, (g x m).1 = .error er)
    (m : σ) : ∃ er, (M.forEach l g m).1 = .error er := by
  induction l generalizing m with
  | nil => cases hx
  | cons y l ih =>
    rw [M.forEach, M.bind]
    rcases hy : g y m with ⟨r, m1⟩
    cases r with
    | error e => exact ⟨e, rfl⟩
    | ok b =>
      have hx' : x ∈ l := by
        rcases List.mem_cons.1 hx with rfl | h
        · obtain ⟨er, her⟩ := hg m
          rw [hy] at her
          cases her
        · exact h
      obtain ⟨er, her⟩ := ih hx' m1
      simp only
      rw [M.bind]
      rcases hz : M.forEach l g m1 with ⟨r', m2⟩
      rw [hz] at her
      simp only at her
      subst her
      exact ⟨er, rfl⟩

/-- **C129 fails** for repeated entries: a list with the name of one raises, both while reading and while writing, whatever the
value. -/
theorem C129_repeated [Zero V] [Add V] [Sub V] (s : Struct) (hwf : WFs s.entries s.order) (c : CS) (hc : CS.ofStruct s = .ok c)
    (master : List V) (prio : List (CIdx × SMat V)) (a : CIdx) (es' : List Entry) (o' : List OrderItem)
    (h : IsAt s.entries s.order a es' o') (l : List Entry) (e : Entry) (hel : e ∈ l) (he : e ∈ es') (hd : e.dims ≠ []) :
    (⟨c, master, prio⟩ : Obj V).getitem (a.map .ofKey ++ [nameList l]) = .error .generic ∧
      ∀ pay : Pay V, ((⟨c, master, prio⟩ : Obj V).setitem (a.map .ofKey ++ [nameList l]) pay).1 = .error .generic := by
  obtain ⟨c', ls, hc', rfl, hb⟩ := ofStruct_built hwf
  rw [hc] at hc'
  cases hc'
  have hg := hb.get_repeated hwf h he hd
  obtain ⟨i, hi⟩ : ∃ i, (e, i) ∈ l.zipIdx := by
    obtain ⟨i, hi, e1⟩ := List.mem_iff_getElem.1 hel
    exact ⟨i, by rw [List.mem_iff_getElem]; exact ⟨i, by simpa using hi, by simp [e1]⟩⟩
  constructor
  · rw [Obj.getitem_eq, Struct.keys, goStruct_names_last _ hwf h]
    rw [bind_pure_run]
    obtain ⟨er, her⟩ := forEach_error l.zipIdx (fun ei : Entry × ℕ =>
      M.bind (ex (payloadUnpack (V := V) .none (.int ei.2))) fun pay' =>
        M.bind ((getDisp c.map prio master).call false pay' ([] ++ (a ++ [.str ei.1.name])) none none) fun r =>
          M.pure (Tree.leaf r)) _ hi (fun m => ⟨.generic, by
            simp only [getDisp, getCall, List.nil_append, hg, ex, M.lift, M.bind, payloadUnpack]⟩) ()
    simp only
    rw [her]
    rfl
  · intro pay
    rw [Obj.setitem_eq, Struct.keys, goStruct_names_last _ hwf h]
    simp only
    rw [bind_pure_run]
    obtain ⟨er, her⟩ := forEach_error l.zipIdx (fun ei : Entry × ℕ =>
      M.bind (ex (payloadUnpack pay (.int ei.2))) fun pay' =>
        M.bind ((setDisp c.map).call false pay' ([] ++ (a ++ [.str ei.1.name])) none none) fun r =>
          M.pure (Tree.leaf r)) _ hi (fun m => by
            rcases hp : payloadUnpack pay (.int i) with er | pay'
            · exact ⟨er, by simp only [hp, ex, M.lift, M.bind]⟩
            · have : ∃ er, setCall c.map pay' (a ++ [.str e.name]) none none m = (.error er, m) := by
                unfold setCall
                rw [hg]
                cases pay'.toMat with
                | error er => exact ⟨er, rfl⟩
                | ok _ => exact ⟨_, rfl⟩
              obtain ⟨er, her⟩ := this
              exact ⟨er, by simp only [hp, ex, M.lift, M.bind, setDisp, Bool.false_eq_true, if_false, List.nil_append, her]⟩) master
    rw [her]
    rfl

/-- **C129 fails** if indices follow: a further index is an index of the struct that contains the named entries and not of the
entries, so an integer or slice after the list raises, and so does a name that this struct does not have. -/
theorem C129_rest [Zero V] [Add V] [Sub V] (o : Obj V) (hwf : WFs o.cs.struct.entries o.cs.struct.order) (a : CIdx)
    (es' : List Entry) (o' : List OrderItem) (h : IsAt o.cs.struct.entries o.cs.struct.order a es' o') (l : List Entry)
    (hl : l ≠ []) (p : PIdx (PyFn V)) (rest : List (PIdx (PyFn V)))
    (hp : (∃ i, p = .int i) ∨ (∃ x y z, p = .slice x y z) ∨ ∃ k, p = .str k ∧ k ∉ es'.map Entry.name) :
    o.getitem (a.map .ofKey ++ nameList l :: p :: rest) = .error .generic ∧
      ∀ pay : Pay V, (o.setitem (a.map .ofKey ++ nameList l :: p :: rest) pay).1 = .error .generic := by
  have key : ∀ {σ R : Type} (d : Disp σ V (PyFn V) R) (c : CIdx) (pay : Pay V) (m : σ),
      (goStruct d (o'.flatMap OrderItem.names) (travTable d es') (p :: rest) false c pay m).1 = .error .generic := by
    intro σ R d c pay m
    rcases hp with ⟨i, rfl⟩ | ⟨x, y, z, rfl⟩ | ⟨k, rfl, hk⟩
    · rfl
    · rfl
    · rw [goStruct]
      have : (travTable d es').reverse.find? (fun t => decide (t.1 = k)) = none := by
        rw [List.find?_eq_none]
        intro x hx
        rw [List.mem_reverse, travTable_eq, List.mem_map] at hx
        obtain ⟨e, he, rfl⟩ := hx
        simp only [decide_eq_true_eq]
        rintro rfl
        exact hk (List.mem_map_of_mem he)
      simp only [this]
      rfl
  obtain ⟨e, l', rfl⟩ := List.exists_cons_of_ne_nil hl
  constructor
  · rw [Obj.getitem_eq, Struct.keys, goStruct_names _ hwf h, bind_pure_run]
    obtain ⟨er, her⟩ := forEach_error (e :: l').zipIdx (fun ei : Entry × ℕ =>
      M.bind (ex (payloadUnpack (V := V) .none (.int ei.2))) fun pay' =>
        goStruct (getDisp o.cs.map o.prio o.master) (o'.flatMap OrderItem.names) (travTable (getDisp o.cs.map o.prio o.master) es')
          (p :: rest) false ([] ++ (a ++ [.str ei.1.name])) pay') (e, 0) (by simp) (fun m => ⟨.generic, key _ _ _ _⟩) ()
    simp only
    rw [her]
    rfl
  · intro pay
    rw [Obj.setitem_eq, Struct.keys, goStruct_names _ hwf h]
    simp only
    rw [bind_pure_run]
    obtain ⟨er, her⟩ := forEach_error (e :: l').zipIdx (fun ei : Entry × ℕ =>
      M.bind (ex (payloadUnpack pay (.int ei.2))) fun pay' =>
        goStruct (setDisp o.cs.map) (o'.flatMap OrderItem.names) (travTable (setDisp o.cs.map) es')
          (p :: rest) false ([] ++ (a ++ [.str ei.1.name])) pay') (e, 0) (by simp) (fun m => by
            rcases hp : payloadUnpack pay (.int (0 : ℕ)) with er | pay'
            · exact ⟨er, by simp only [hp, ex, M.lift, M.bind]⟩
            · exact ⟨.generic, by simp only [hp, ex, M.lift, M.bind]; exact key _ _ _ _⟩) o.master
    rw [her]
    rfl

/-- **C129 fails** for entries of type symm: in `s[..., ["P"]]` the matrix is its upper triangle, with zeros below the diagonal, while
`s[..., "P"]` is symmetric. -/
theorem C129_symm [Zero V] [Add V] [Sub V] (hv : ∀ x : V, x + x - x = x) (s : Struct) (hwf : WFs s.entries s.order) (c : CS)
    (hc : CS.ofStruct s = .ok c) (master : List V) (hlen : master.length = c.size) (a : CIdx) (es' : List Entry)
    (o' : List OrderItem) (h : IsAt s.entries s.order a es' o') (n : String) (p : Prim) (osp : Sparsity)
    (he : Entry.prim n [] p ∈ es') (hs : IsSymm p osp) :
    ∃ r R : SMat V, (⟨c, master, []⟩ : Obj V).getitem (a.map .ofKey ++ [.list [.str n]]) = .ok (.list [.leaf r]) ∧
      (⟨c, master, []⟩ : Obj V).getitem ((a ++ [Key.str n]).map .ofKey) = .ok (.leaf R) ∧ r.sp = p.sp ∧
      (∀ i j, i ≤ j → r.at' (i, j) = R.at' (i, j)) ∧ (∀ i j, R.at' (i, j) = R.at' (j, i)) ∧ ∀ i j, j < i → r.at' (i, j) = 0 := by
  have ha : IsLeaf s.entries (a ++ [.str n]) p := h.leaf (.prim he .nil)
  obtain ⟨R', hR', _, _, _, hsy, _⟩ := C55_read_symmetric s hwf c hc master hlen _ p osp ha hs
  obtain ⟨c', ls, hc', rfl, hb⟩ := ofStruct_built hwf
  rw [hc] at hc'
  cases hc'
  obtain ⟨i, hg, hw, hnd, hin, hsp, hR⟩ := getitem_symm hb hwf hlen ha hs
  have e1 := hR'.symm.trans hR
  simp only [Except.ok.injEq, Tree.leaf.injEq] at e1
  have hcan : (IsSymm.pattern osp).Canon := Sparsity.ofPred_canon _ _ _
  have hcanp : p.sp.Canon := ha.canon hwf
  have hrw : (⟨p.sp, i.data.map fun k => master.getD k 0⟩ : SMat V).WF :=
    ⟨hcanp, by rw [List.length_map, hw.2, hsp]⟩
  have hz : ∀ q, q ∉ p.sp.nz → (⟨p.sp, i.data.map fun k => master.getD k 0⟩ : SMat V).at' q = 0 := by
    intro q hq
    rw [SMat.at', (SMat.nzAt_eq_none hrw).2 hq]
    rfl
  refine ⟨⟨p.sp, i.data.map fun k => master.getD k 0⟩, R', ?_, hR', rfl, ?_, hsy, ?_⟩
  · have := goStruct_names_last (getDisp c.map [] master) hwf h [.prim n [] p] false [] .none
    rw [Obj.getitem_eq, Struct.keys]
    refine (congrArg (fun x => gen (x ()).1) this).trans ?_
    have hcall : getCall c.map [] master (a ++ [.str n]) none none = .ok ⟨p.sp, i.data.map fun k => master.getD k 0⟩ := by
      unfold getCall
      rw [hg]
      show (gather master i).bind (fun r => .ok r) = _
      rw [gather_ok (by rw [hlen]; exact hin), hsp]
      rfl
    have hc2 : (getDisp c.map [] master).call false .none ([] ++ (a ++ [.str n])) none none =
        ex (.ok ⟨p.sp, i.data.map fun k => master.getD k 0⟩) := by
      show ex (getCall c.map [] master (a ++ [.str n]) none none) = _
      rw [hcall]
    show gen ((M.bind (M.bind (M.bind (ex (.ok Pay.none)) fun pay' =>
      M.bind ((getDisp c.map [] master).call false .none ([] ++ (a ++ [.str n])) none none) fun r => M.pure (Tree.leaf r)) fun b =>
        M.bind (M.pure []) fun bs => M.pure (b :: bs)) fun r => M.pure (Tree.list r)) ()).1 = _
    rw [hc2]
    rfl
  · intro x y hxy
    rw [e1, SMat.fill_at' hcan]
    by_cases hm : (x, y) ∈ p.sp.nz
    · have h2 := hs.mem_sp.1 hm
      have h3 := hs.canon.mem h2.1
      rw [if_pos (by
        simp only [IsSymm.pattern, Sparsity.mem_ofPred, decide_eq_true_eq]
        exact ⟨⟨h3.1, by rw [hs.square]; exact h3.2⟩, .inl h2⟩)]
      rcases hxy.eq_or_lt with e | e
      · simp only [e, if_true, hv]
      · simp only [e.ne, e, if_true, if_false]
    · rw [hz _ hm]
      split
      · rename_i hp
        simp only [IsSymm.pattern, Sparsity.mem_ofPred, decide_eq_true_eq] at hp
        have : x = y := by
          rcases hp.2 with h | h
          · exact absurd (hs.mem_sp.2 h) hm
          · have := h.2; omega
        subst this
        simp only [if_true, hz _ hm, hv]
      · rfl
  · intro x y hxy
    refine hz _ fun hm => ?_
    have := (hs.mem_sp.1 hm).2
    simp only at this
    omega

/-- **C129** (`s.f`): the flat indices of `["x", "y"]` are those of `x` followed by those of `y`, for all entries without repeat.
This is what `t['v', ["x", "y"]]` selects in an entry with `s` as shapestruct. -/
theorem C129_flat (c : CS) (hwf : WFs c.struct.entries c.struct.order) (a : CIdx)
    (es' : List Entry) (o' : List OrderItem) (h : IsAt c.struct.entries c.struct.order a es' o') (l : List Entry)
    (hl : ∀ e ∈ l, e ∈ es' ∧ e.dims = []) :
    c.f (a.map .ofKey ++ [nameList l]) = (l.mapM fun e => c.f ((a ++ [Key.str e.name]).map .ofKey)).map List.flatten := by
  have h1 : ∀ e ∈ l, c.f ((a ++ [Key.str e.name]).map .ofKey) =
      gen (flatCall (F := Empty) (fun f => f.elim) c.map (a ++ [.str e.name]) none none) := by
    intro e he
    obtain ⟨he', hd⟩ := hl e he
    rw [CS.f, Struct.traverse_fst, Struct.keys, goStruct_single _ hwf h he' hd]
    have : flatCall (F := Empty) (fun f => f.elim) c.map (a ++ [.str e.name]) none e.prim? =
        flatCall (F := Empty) (fun f => f.elim) c.map (a ++ [.str e.name]) none none := rfl
    simp only [flatDisp, List.nil_append, this, ex, M.lift, M.bind]
    cases flatCall (F := Empty) (fun f => f.elim) c.map (a ++ [.str e.name]) none none <;> rfl
  rw [mapM_congr' h1, CS.f, Struct.traverse_fst, Struct.keys, goStruct_names_last _ hwf h]
  have h2 := nameLoop (V := Empty) l fun e => M.bind ((flatDisp (V := Empty) c.map).call false .none ([] ++ (a ++ [.str e.name])) none
    none) fun r => M.pure (Tree.leaf r)
  refine (congrArg (fun x : Except PyErr (Tree (List ℤ)) => x.bind Tree.vec) h2).trans ?_
  clear h1 hl h2
  induction l with
  | nil => rfl
  | cons e l ih =>
    rw [List.mapM_cons, List.mapM_cons]
    have : gen (M.bind ((flatDisp (V := Empty) c.map).call false .none ([] ++ (a ++ [.str e.name])) none none)
        (fun r => M.pure (Tree.leaf r)) ()).1 =
        (gen (flatCall (F := Empty) (fun f => f.elim) c.map (a ++ [.str e.name]) none none)).map .leaf := by
      simp only [flatDisp, List.nil_append, ex, M.lift, M.bind]
      cases flatCall (F := Empty) (fun f => f.elim) c.map (a ++ [.str e.name]) none none <;> rfl
    rw [this]
    cases gen (flatCall (F := Empty) (fun f => f.elim) c.map (a ++ [.str e.name]) none none) with
    | error _ => rfl
    | ok x =>
      revert ih
      generalize (l.mapM fun e => gen (M.bind ((flatDisp (V := Empty) c.map).call false .none ([] ++ (a ++ [.str e.name])) none none)
        (fun r => M.pure (Tree.leaf r)) ()).1) = A
      generalize (l.mapM fun e => gen (flatCall (F := Empty) (fun f => f.elim) c.map (a ++ [.str e.name]) none none)) = B
      intro ih
      cases A with
      | error _ =>
        cases B with
        | error _ => exact ih
        | ok _ => cases ih
      | ok A =>
        cases B with
        | error _ =>
          change Tree.vec (.list (Tree.leaf x :: A)) = _
          change Tree.vec (.list A) = _ at ih
          rw [Tree.vec] at ih ⊢
          rw [Tree.vec.goList, ih]
          rfl
        | ok B =>
          change Tree.vec (.list (Tree.leaf x :: A)) = _
          change Tree.vec (.list A) = _ at ih
          rw [Tree.vec] at ih ⊢
          rw [Tree.vec.goList, ih]
          rfl

/-- **C129** is false of the code: `s[["P"]]` is not `[s["P"]]` for a symmetric matrix, and for a repeated entry `s[["a"]]` raises although
`s["a"]` does not. -/
theorem C129_refuted :
    (∃ (s : Struct) (c : CS) (m : List ℚ) (r R : SMat ℚ), WFs s.entries s.order ∧ CS.ofStruct s = .ok c ∧ m.length = c.size ∧
      (⟨c, m, []⟩ : Obj ℚ).getitem [.list [.str "P"]] = .ok (.list [.leaf r]) ∧
      (⟨c, m, []⟩ : Obj ℚ).getitem [.str "P"] = .ok (.leaf R) ∧ r.at' (1, 0) = 0 ∧ R.at' (1, 0) = 2) ∧
    ∃ (s : Struct) (c : CS) (t : Tree (SMat ℚ)), WFs s.entries s.order ∧ CS.ofStruct s = .ok c ∧
      (⟨c, [1, 2, 3, 4], []⟩ : Obj ℚ).getitem [.str "a"] = .ok t ∧
      (⟨c, [1, 2, 3, 4], []⟩ : Obj ℚ).getitem [.list [.str "a"]] = .error .generic := by
  constructor
  · have hwf := oneStruct_wf symm2_canon
    obtain ⟨c, h1, h2, hb⟩ := oneStruct_built symm2_canon
    have hsize : c.size = 3 := by rw [hb.size]; rfl
    have hv : ∀ x : ℚ, x + x - x = x := fun x => by ring
    obtain ⟨m, R, w1, w2, w3, _, w4, w5, _, _⟩ := C55_write_read_partial hv _ hwf c h1 [0, 0, 0] (by rw [hsize]; rfl) [.str "P"] symm2 _
      (oneStruct_leaf _) symm2_isSymm _ _ (.mat ⟨.dense 2 2, [1, 2, 2, 3]⟩) ⟨Sparsity.dense_canon _ _, rfl⟩ _ (.inl ⟨rfl, rfl⟩)
    have hlen : m.length = c.size := by rw [w2, hsize]; rfl
    obtain ⟨r, R', g1, g2, _, _, _, g5⟩ := C129_symm hv _ hwf c h1 m hlen [] _ _ .root "P" symm2 _ List.mem_cons_self symm2_isSymm
    have h01 := w5 0 1 (by rw [w4]; decide) (by decide)
    exact ⟨_, c, m, r, R, hwf, h1, hlen, g1, w3, g5 1 0 (by decide), h01.2.trans rfl⟩
  · obtain ⟨c, h1, h2, hsz, hi, _⟩ := groupStruct_i
    refine ⟨groupStruct, c, .list [.leaf ⟨.dense 1 1, [1]⟩, .leaf ⟨.dense 1 1, [3]⟩], groupStruct_wf, h1, ?_, ?_⟩
    · have hwf' : WFs c.struct.entries c.struct.order := by rw [h2]; exact groupStruct_wf
      have hea : Entry.prim "a" [2] ⟨.dense 1 1, false, none, none⟩ ∈ c.struct.entries := by rw [h2]; exact List.mem_cons_self
      have hel : ∀ j : ℕ, j < 2 → (⟨c, [1, 2, 3, 4], []⟩ : Obj ℚ).getitem [.str "a", .int j] =
          .ok (.leaf ⟨.dense 1 1, [[1, 2, 3, 4].getD (2 * j) 0]⟩) := by
        intro j hj
        obtain ⟨c', ls, hc', hcs, hb⟩ := ofStruct_built groupStruct_wf
        rw [h1] at hc'
        cases hc'
        have hleaf : IsLeaf c.struct.entries [.str "a", .int j] ⟨.dense 1 1, false, none, none⟩ :=
          .prim hea (.cons ⟨j, hj, rfl⟩ .nil)
        obtain ⟨i, hg, _, _, _, _, hr⟩ := getitem_plain (V := ℚ) hb hwf' (master := [1, 2, 3, 4]) (by rw [hsz]; rfl) (.leaf hleaf)
          (by rintro _ ⟨⟩; rfl)
        have h3 := c.i_leaf (V := ℚ) hwf' hleaf
        rw [hg] at h3
        have h4 := h3.symm.trans (hi j hj)
        simp only [Except.ok.injEq, Tree.leaf.injEq] at h4
        subst h4
        exact hr
      have hall := C45_all (⟨c, [1, 2, 3, 4], []⟩ : Obj ℚ) hwf' [] _ _ .root _ hea [] [] [] 2 rfl .nil
      refine hall.trans ?_
      show Except.map Tree.list (Except.bind ((⟨c, [1, 2, 3, 4], []⟩ : Obj ℚ).getitem [.str "a", .int (0 : ℕ)]) _) = _
      rw [hel 0 (by decide)]
      show Except.map Tree.list (Except.bind
        ((⟨c, [1, 2, 3, 4], []⟩ : Obj ℚ).getitem [.str "a", .int (1 : ℕ)]) _) = _
      rw [hel 1 (by decide)]
      rfl
    · exact (C129_repeated groupStruct groupStruct_wf c h1 [1, 2, 3, 4] [] [] _ _ .root
        [.prim "a" [2] ⟨.dense 1 1, false, none, none⟩] _ List.mem_cons_self List.mem_cons_self (by simp [Entry.dims])).1

/-- `s[["y", "x"]]` of a struct with a number `x` and a vector `y`, and `s[["x", "y"]] = [7, 8]`. -/
example (c : CS) (hc : CS.ofStruct vecStruct = .ok c) (hs : c.struct = vecStruct) (u v w : ℚ) :
    (⟨c, [u, v, w], []⟩ : Obj ℚ).getitem [.list [.str "y", .str "x"]] =
      ([[PIdx.str "y"], [.str "x"]].mapM fun n => (⟨c, [u, v, w], []⟩ : Obj ℚ).getitem n).map .list ∧
    (⟨c, [u, v, w], []⟩ : Obj ℚ).setitem [.list [.str "x", .str "y"]] (.list [.num 7, .num 8]) =
      (⟨c, [u, v, w], []⟩ : Obj ℚ).setAll [([.str "x"], .num 7), ([.str "y"], .num 8)] ∧
    (⟨c, [u, v, w], []⟩ : Obj ℚ).getitem [.list [.str "y"], .int 0] = .error .generic := by
  have hwf : WFs c.struct.entries c.struct.order := by rw [hs]; exact vecStruct_wf
  have hx : Entry.prim "x" [] ⟨.dense 1 1, false, none, none⟩ ∈ c.struct.entries := by rw [hs]; simp [vecStruct]
  have hy : Entry.prim "y" [] ⟨.dense 2 1, false, none, none⟩ ∈ c.struct.entries := by rw [hs]; simp [vecStruct]
  have single : ∀ n sp, (Entry.prim n [] ⟨sp, false, none, none⟩).Single := fun n sp => ⟨rfl, by rintro p ⟨⟩; rfl⟩
  refine ⟨?_, ?_, ?_⟩
  · exact C129_read_partial (⟨c, [u, v, w], []⟩ : Obj ℚ) hwf [] _ _ .root [.prim "y" [] ⟨.dense 2 1, false, none, none⟩,
      .prim "x" [] ⟨.dense 1 1, false, none, none⟩] (by
        intro e he
        simp only [List.mem_cons, List.not_mem_nil, or_false] at he
        rcases he with rfl | rfl
        · exact ⟨hy, single _ _⟩
        · exact ⟨hx, single _ _⟩)
  · exact C129_write_partial (⟨c, [u, v, w], []⟩ : Obj ℚ) hwf [] _ _ .root [.prim "x" [] ⟨.dense 1 1, false, none, none⟩,
      .prim "y" [] ⟨.dense 2 1, false, none, none⟩] (by
        intro e he
        simp only [List.mem_cons, List.not_mem_nil, or_false] at he
        rcases he with rfl | rfl
        · exact ⟨hx, single _ _⟩
        · exact ⟨hy, single _ _⟩) [.num 7, .num 8] rfl
  · exact (C129_rest (⟨c, [u, v, w], []⟩ : Obj ℚ) hwf [] _ _ .root [.prim "y" [] ⟨.dense 2 1, false, none, none⟩] (by simp)
      (.int 0) [] (.inl ⟨0, rfl⟩)).1

end

/-- C129: lists of names at a repeated entry, and where the positions are. -/
example (c : CS) (hc : CS.ofStruct exStruct = .ok c) (master : List ℚ) :
    (⟨c, master, []⟩ : Obj ℚ).getitem [.list [.str "x", .str "n"]] = .error .generic ∧
    c.i (V := ℚ) [.str "n", .int 1, .list [.str "P", .str "u"]] =
      ([[PIdx.str "n", .int 1, .str "P"], [.str "n", .int 1, .str "u"]].mapM fun q => c.i (V := ℚ) q).map .list ∧
    (⟨c, master, []⟩ : Obj ℚ).setitem [.str "n", .int 1, .list [.str "P", .str "u"]] (.num 3) =
      (⟨c, master, []⟩ : Obj ℚ).setAll [([.str "n", .int 1, .str "P"], .num 3), ([.str "n", .int 1, .str "u"], .num 3)] := by
  have hn : Entry.nested "n" [2] exNested [.one "u", .one "P"] ∈ exStruct.entries := by simp [exStruct]
  have hs : c.struct = exStruct := ofStruct_struct hc
  have hwf : WFs c.struct.entries c.struct.order := by rw [hs]; exact exStruct_wf
  have hat : IsAt c.struct.entries c.struct.order [.str "n", .int 1] exNested [.one "u", .one "P"] := by
    rw [hs]
    exact .node (.top hn (ks := [.int 1]) (.cons ⟨1, by decide, rfl⟩ .nil))
  have hP : Entry.prim "P" [] ⟨.upper 2, false, none, none⟩ ∈ exNested := by simp [exNested]
  have hu : Entry.prim "u" [] ⟨.dense 1 1, false, none, none⟩ ∈ exNested := by simp [exNested]
  refine ⟨?_, ?_, ?_⟩
  · exact (C129_repeated exStruct exStruct_wf c hc master [] [] _ _ .root [.prim "x" [] ⟨.dense 2 1, false, none, none⟩, _] _
      (List.mem_cons_of_mem _ List.mem_cons_self) hn
      (by simp [Entry.dims])).1
  · exact C129_index (V := ℚ) c hwf [.str "n", .int 1] _ _ hat [_, _] (by
      intro e he
      simp only [List.mem_cons, List.not_mem_nil, or_false] at he
      rcases he with rfl | rfl
      · exact ⟨hP, rfl⟩
      · exact ⟨hu, rfl⟩)
  · exact C129_write_value_partial (⟨c, master, []⟩ : Obj ℚ) hwf [.str "n", .int 1] _ _ hat [_, _] (by
      intro e he
      simp only [List.mem_cons, List.not_mem_nil, or_false] at he
      rcases he with rfl | rfl
      · exact ⟨hP, rfl, by rintro p ⟨⟩; rfl⟩
      · exact ⟨hu, rfl, by rintro p ⟨⟩; rfl⟩) (.num 3) (.inl ⟨3, rfl⟩)

end CE.St
