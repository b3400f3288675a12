import Verif.Struct.PickleAll
import Verif.Struct.PropsPickle
import Verif.Struct.PropsPrio

/-! # Pickling of objects of all classes (C90) -/

namespace CE.St

variable {V : Type}

theorem WFs.strip {es : List Entry} {o : List OrderItem} (h : WFs es o) : WFs (stripAll es) o := by
  induction h with
  | @mk es o nodup perm canon sub ih =>
    have hn : (stripAll es).map Entry.name = es.map Entry.name := by
      rw [stripAll_eq, List.map_map]
      exact List.map_congr_left fun e _ => e.strip_name
    refine .mk (by rw [hn]; exact nodup) (by rw [hn]; exact perm) ?_ ?_
    · intro n d p hp
      rw [stripAll_eq] at hp
      obtain ⟨e, he, h⟩ := List.mem_map.1 hp
      cases e with
      | prim n' d' p' =>
        rw [Entry.strip] at h
        cases h
        exact canon n d p' he
      | nested => rw [Entry.strip] at h; cases h
    · intro n d es' o' hp
      rw [stripAll_eq] at hp
      obtain ⟨e, he, h⟩ := List.mem_map.1 hp
      cases e with
      | prim => rw [Entry.strip] at h; cases h
      | nested n' d' es'' o'' =>
        rw [Entry.strip] at h
        cases h
        exact ih _ _ _ _ he

/-! ## What is written -/

theorem dumpObjs_mono {k : ℕ} {x : Option (PKeys V)} (os : List (PObj V)) : ∀ (init : List (ℕ × PKeys V)) (memo : MemoOf (PKeys V)),
    dictGet memo k = some x → dictGet (dumpObjs os init memo) k = some x := by
  induction os with
  | nil => intro _ _ h; exact h
  | cons o os ih => intro init memo h; rw [dumpObjs]; exact ih _ _ (o.st.dump_mono _ _ h)

/-- The first object that contains a struct decides what is found for this struct. -/
theorem dumpObjs_first {o : PObj V} (pre post : List (PObj V)) (hpre : ∀ x ∈ pre, o.st.id ∉ x.st.ids) :
    ∀ (init : List (ℕ × PKeys V)) (memo : MemoOf (PKeys V)), dictGet memo o.st.id = none →
    dictGet (dumpObjs (pre ++ o :: post) init memo) o.st.id = some (some (o.kind.store ((dictGet init o.st.id).getD {}))) := by
  induction pre with
  | nil =>
    intro init memo h
    rw [List.nil_append, dumpObjs]
    apply dumpObjs_mono
    rw [o.st.dump_own _ _ h, dictGet_dictSet, if_pos rfl]
  | cons x pre ih =>
    intro init memo h
    have hx := hpre x List.mem_cons_self
    rw [List.cons_append, dumpObjs]
    rw [ih (fun y hy => hpre y (List.mem_cons_of_mem _ hy)) _ _ (by rw [x.st.dump_notin _ _ hx, h]), dictGet_dictSet, if_neg]
    intro e
    apply hx
    rw [← e]
    cases x.st with
    | mk i es o => rw [PStruct.ids]; exact List.mem_cons_self

mutual
/-- All structs inside a struct are written. -/
theorem PStruct.dump_ids {α : Type} (init : List (ℕ × α)) {k : ℕ} : ∀ (s : PStruct) (memo : MemoOf α), s.ids.Nodup →
    (∀ i ∈ s.ids, dictGet memo i = none) → k ∈ s.ids → dictGet (s.dump init memo) k = some (dictGet init k)
  | .mk i es o, memo, hn, h, hk => by
    rw [PStruct.ids] at hn h hk
    rw [List.nodup_cons] at hn
    rcases List.mem_cons.1 hk with rfl | hk
    · exact PStruct.dump_own init (.mk k es o) memo (h k List.mem_cons_self)
    · rw [PStruct.dump, if_neg (by simpa using dictGet_eq_none.1 (h i List.mem_cons_self))]
      refine dumpEntries_ids init es _ hn.2 (fun j hj => ?_) hk
      rw [dictGet_append, h j (List.mem_cons_of_mem _ hj), dictGet_cons, if_neg, dictGet_nil]
      · rfl
      · rintro rfl
        exact hn.1 hj
theorem PEntry.dump_ids {α : Type} (init : List (ℕ × α)) {k : ℕ} : ∀ (e : PEntry) (memo : MemoOf α), e.ids.Nodup →
    (∀ i ∈ e.ids, dictGet memo i = none) → k ∈ e.ids → dictGet (e.dump init memo) k = some (dictGet init k)
  | .prim _ _ _ ss, memo, hn, h, hk => by
    rw [PEntry.ids] at hn h hk
    rw [PEntry.dump]
    exact dumpStructs_ids init ss memo hn h hk
  | .nested _ _ s, memo, hn, h, hk => by
    rw [PEntry.ids] at hn h hk
    rw [PEntry.dump]
    exact s.dump_ids init memo hn h hk
theorem dumpEntries_ids {α : Type} (init : List (ℕ × α)) {k : ℕ} : ∀ (es : List PEntry) (memo : MemoOf α), (idsEntries es).Nodup →
    (∀ i ∈ idsEntries es, dictGet memo i = none) → k ∈ idsEntries es → dictGet (dumpEntries init es memo) k = some (dictGet init k)
  | [], memo, hn, h, hk => by rw [idsEntries] at hk; cases hk
  | e :: es, memo, hn, h, hk => by
    rw [idsEntries] at hn h hk
    rw [List.nodup_append] at hn
    rw [dumpEntries]
    rcases List.mem_append.1 hk with hk | hk
    · exact dumpEntries_mono init es _ (e.dump_ids init memo hn.1 (fun i hi => h i (List.mem_append_left _ hi)) hk)
    · refine dumpEntries_ids init es _ hn.2.1 (fun i hi => ?_) hk
      rw [e.dump_notin init memo fun hi' => hn.2.2 i hi' i hi rfl]
      exact h i (List.mem_append_right _ hi)
theorem dumpStructs_ids {α : Type} (init : List (ℕ × α)) {k : ℕ} : ∀ (ss : List PStruct) (memo : MemoOf α), (idsStructs ss).Nodup →
    (∀ i ∈ idsStructs ss, dictGet memo i = none) → k ∈ idsStructs ss → dictGet (dumpStructs init ss memo) k = some (dictGet init k)
  | [], memo, hn, h, hk => by rw [idsStructs] at hk; cases hk
  | s :: ss, memo, hn, h, hk => by
    rw [idsStructs] at hn h hk
    rw [List.nodup_append] at hn
    rw [dumpStructs]
    rcases List.mem_append.1 hk with hk | hk
    · exact dumpStructs_mono init ss _ (s.dump_ids init memo hn.1 (fun i hi => h i (List.mem_append_left _ hi)) hk)
    · refine dumpStructs_ids init ss _ hn.2.1 (fun i hi => ?_) hk
      rw [s.dump_notin init memo fun hi' => hn.2.2 i hi' i hi rfl]
      exact h i (List.mem_append_right _ hi)
end

/-- The dictionaries of all objects are written. -/
theorem dumpObjs_mem {o : PObj V} (os : List (PObj V)) (ho : o ∈ os) : ∀ (init : List (ℕ × PKeys V)) (memo : MemoOf (PKeys V)),
    ∃ x, dictGet (dumpObjs os init memo) o.st.id = some x := by
  induction os with
  | nil => cases ho
  | cons o' os ih =>
    intro init memo
    rw [dumpObjs]
    rcases List.mem_cons.1 ho with rfl | ho
    · cases h : dictGet memo o.st.id with
      | none => exact ⟨_, dumpObjs_mono _ _ _ (o.st.dump_own _ _ h)⟩
      | some x => exact ⟨x, dumpObjs_mono _ _ _ (o.st.dump_mono _ _ h)⟩
    · exact ih ho _ _

/-! ## C90 -/

/-- The same layout: positions of all parts, table of labels, size and names. -/
structure SameLayout (c c' : CS) : Prop where
  map : c'.map = c.map
  table : c'.table = c.table
  size : c'.size = c.size
  keys : c'.struct.keys = c.struct.keys

variable [Zero V]

/-- What unpickling should give for an object with the layout `c`: the same layout; the same data for a `DMStruct`, new symbols for the
symbolic objects; no expressions for a `struct_MX`. -/
def Restored [Add V] [Sub V] (fresh : ℕ → V) (c : CS) : PKind V → Loaded V → Prop
  | .layout, .layout c' | .plain _, .layout c' => SameLayout c c'
  | .symSX _, .obj o | .symMX _, .obj o => SameAs c ((List.range c.size).map fresh) o
  | .dm m, .obj o => SameAs c m o
  | .veccat _, .veccat o => SameLayout c o.cs ∧ (∀ x ∈ o.storage, x = none) ∧
      o.storage.length = (tops c.struct.entries c.struct.order).length
  | _, _ => False

/-- Valid objects: well-formed structs, and data of the size of the struct. -/
def PObj.Valid (o : PObj V) (c : CS) : Prop :=
  WFs o.st.struct.entries o.st.struct.order ∧ CS.ofStruct o.st.struct = .ok c ∧ ∀ m, o.kind = .dm m → m.length = c.size

/-- The key that `__setstate__` needs is in the dictionary. -/
def PKind.Has (k : PKind V) (d : PKeys V) : Prop :=
  match k with
  | .layout => True
  | .dm _ => d.master ≠ none
  | _ => d.order ≠ none

theorem loadObj_restored [Add V] [Sub V] (fresh : ℕ → V) {memo : MemoOf (PKeys V)} {o : PObj V} {c : CS} (hv : o.Valid c) {d : PKeys V}
    {x : Option (PKeys V)} (hm : dictGet memo o.st.id = some x) (hx : x.getD {} = d) (hk : o.kind.Has d)
    (hd : ∀ m, o.kind = .dm m → d.master = some m)
    (hmut : o.kind ≠ .mutable) : ∃ r, loadObj fresh memo o = .ok r ∧ Restored fresh c o.kind r := by
  obtain ⟨st, kind⟩ := o
  obtain ⟨hwf, hc, hl⟩ := hv
  simp only at *
  obtain ⟨c0, ls, h1, h2, hb⟩ := ofStruct_built hwf
  rw [hc] at h1
  cases h1
  have hnew : CS.new (stripAll st.struct.entries) (some st.struct.order) =
      .ok { c with struct := ⟨stripAll st.struct.entries, st.struct.order⟩ } := by
    rw [CS.new, Struct.new_strip hwf]
    simp only
    rw [CS.ofStruct_strip, hc]
    rfl
  have hsl : SameLayout c { c with struct := ⟨stripAll st.struct.entries, st.struct.order⟩ } :=
    ⟨rfl, rfl, rfl, by rw [h2]; rfl⟩
  have hsa : ∀ m : List V, SameAs c m ⟨{ c with struct := ⟨stripAll st.struct.entries, st.struct.order⟩ }, m, []⟩ := fun m =>
    ⟨rfl, rfl, rfl, by rw [h2]; rfl, rfl, getitem_strip st.struct c h2 m⟩
  unfold loadObj
  simp only [hm, hx]
  show ∃ r, Except.bind (CS.new _ _) _ = _ ∧ _
  rw [hnew]
  cases kind with
  | layout => exact ⟨_, rfl, hsl⟩
  | plain x =>
    obtain ⟨y, hy⟩ := Option.ne_none_iff_exists'.1 hk
    simp only [hy]
    exact ⟨_, rfl, hsl⟩
  | symSX x =>
    obtain ⟨y, hy⟩ := Option.ne_none_iff_exists'.1 hk
    simp only [hy]
    exact ⟨_, rfl, hsa _⟩
  | symMX x =>
    obtain ⟨y, hy⟩ := Option.ne_none_iff_exists'.1 hk
    simp only [hy]
    obtain ⟨c', k1, k2⟩ := C54_read (V := V) ⟨stripAll st.struct.entries, st.struct.order⟩ hwf.strip
    rw [CS.ofStruct_strip, hc] at k1
    cases k1
    obtain ⟨r, k3, k4, k5, k6⟩ := k2 ((List.range c.size).map fresh) (by simp)
    refine ⟨.obj r, ?_, ?_⟩
    · show Except.bind (newSymMX _ _) _ = _
      rw [k3]
      rfl
    · refine ⟨by rw [k4], by rw [k4], by rw [k4], by rw [k4, h2]; rfl, k5, fun pi => ?_⟩
      rw [k6]
      exact getitem_strip st.struct c h2 _ pi
  | mutable => exact absurd rfl hmut
  | veccat x =>
    obtain ⟨y, hy⟩ := Option.ne_none_iff_exists'.1 hk
    simp only [hy]
    refine ⟨_, rfl, hsl, ?_, ?_⟩
    · intro x hx
      obtain ⟨_, _, rfl⟩ := List.mem_map.1 hx
      rfl
    · rw [VObj.empty, List.length_map, Struct.traverseCanonicalIndex, stripAll_children, h2, ← traverseCanonicalIndex_one st.struct]
      rfl
  | dm m =>
    have := hd m rfl
    simp only [this]
    refine ⟨.obj ⟨_, m, []⟩, ?_, hsa m⟩
    show Except.bind (newMatrixStruct _ _) _ = _
    have hlm : m.length = c.size := hl m rfl
    rw [newMatrixStruct, SMat.col, if_neg (by simpa [Sparsity.dense] using hlm), if_neg (by simp [Sparsity.dense]),
      SMat.toColumn_dense rfl]
    rfl

omit [Zero V] in
theorem PKind.store_has (k : PKind V) (d : PKeys V) : k.Has (k.store d) := by
  cases k <;> simp [PKind.Has, PKind.store]

theorem loadObj_needs (fresh : ℕ → V) {memo : MemoOf (PKeys V)} {o : PObj V} {d : PKeys V} (hwf : WFs o.st.struct.entries o.st.struct.order)
    {x : Option (PKeys V)} (hm : dictGet memo o.st.id = some x) (hx : x.getD {} = d) (hk : ¬ o.kind.Has d) : loadObj fresh memo o = .error .key := by
  obtain ⟨st, kind⟩ := o
  simp only at *
  obtain ⟨c, ls, hc, h2, hb⟩ := ofStruct_built hwf
  have hnew : CS.new (stripAll st.struct.entries) (some st.struct.order) =
      .ok { c with struct := ⟨stripAll st.struct.entries, st.struct.order⟩ } := by
    rw [CS.new, Struct.new_strip hwf]
    simp only
    rw [CS.ofStruct_strip, hc]
    rfl
  unfold loadObj
  simp only [hm, hx]
  show Except.bind (CS.new _ _) _ = _
  rw [hnew]
  cases kind <;> simp only [PKind.Has, ne_eq, not_not, not_true] at hk <;> simp only [hk] <;> rfl

/-- A list with an object that cannot be unpickled cannot be unpickled. -/
theorem pickleObjs_error {fresh : ℕ → ℕ → V} {os : List (PObj V)} {init : List (ℕ × PKeys V)} {i : ℕ} {o : PObj V} (ho : os[i]? = some o)
    (h : ∃ e, loadObj (fresh i) (dumpObjs os init []) o = .error e) : ∃ e, pickleObjs fresh os init = .error e := by
  have hm : (o, i) ∈ os.zipIdx := by rw [List.mk_mem_zipIdx_iff_getElem?]; exact ho
  rw [pickleObjs]
  generalize dumpObjs os init [] = memo at h
  generalize os.zipIdx = l at hm
  induction l with
  | nil => cases hm
  | cons p l ih =>
    rw [List.mapM_cons]
    rcases List.mem_cons.1 hm with rfl | hm
    · obtain ⟨e, h⟩ := h
      exact ⟨e, by rw [h]; rfl⟩
    · cases hp : loadObj (fresh p.2) memo p.1 with
      | error e => exact ⟨e, rfl⟩
      | ok r =>
        obtain ⟨e, he⟩ := ih hm
        exact ⟨e, by show Except.bind _ _ = _; rw [he]; rfl⟩

theorem pickleObjs_ok {fresh : ℕ → ℕ → V} {os : List (PObj V)} {init : List (ℕ × PKeys V)} {R : ℕ → PObj V → Loaded V → Prop}
    (h : ∀ (i : ℕ) o, os[i]? = some o → ∃ r, loadObj (fresh i) (dumpObjs os init []) o = .ok r ∧ R i o r) :
    ∃ rs, pickleObjs fresh os init = .ok rs ∧ rs.length = os.length ∧ ∀ (i : ℕ) o r, os[i]? = some o → rs[i]? = some r → R i o r := by
  rw [pickleObjs]
  generalize dumpObjs os init [] = memo at h
  have key : ∀ (l : List (PObj V)) (k : ℕ), (∀ (i : ℕ) o, l[i]? = some o → ∃ r, loadObj (fresh (k + i)) memo o = .ok r ∧ R (k + i) o r) →
      ∃ rs, ((l.zipIdx k).mapM fun p => loadObj (fresh p.2) memo p.1) = .ok rs ∧ rs.length = l.length ∧
        ∀ (i : ℕ) o r, l[i]? = some o → rs[i]? = some r → R (k + i) o r := by
    intro l
    induction l with
    | nil => intro k _; exact ⟨[], rfl, rfl, by intro i o r h; simp at h⟩
    | cons o l ih =>
      intro k hl
      obtain ⟨r, h1, h2⟩ := hl 0 o rfl
      obtain ⟨rs, h3, h4, h5⟩ := ih (k + 1) fun i o ho => by
        have := hl (i + 1) o (by simpa using ho)
        rwa [show k + (i + 1) = k + 1 + i by omega] at this
      refine ⟨r :: rs, ?_, by simp [h4], ?_⟩
      · rw [List.zipIdx_cons, List.mapM_cons]
        simp only
        rw [show k = k + 0 from rfl, h1]
        show Except.bind _ _ = _
        rw [show k + 0 + 1 = k + 1 from rfl, h3]
        rfl
      · intro i o' r' ho hr
        cases i with
        | zero =>
          simp only [List.getElem?_cons_zero, Option.some.injEq] at ho hr
          subst ho hr
          exact h2
        | succ i =>
          have := h5 i o' r' (by simpa using ho) (by simpa using hr)
          rwa [show k + 1 + i = k + (i + 1) by omega] at this
  obtain ⟨rs, h1, h2, h3⟩ := key os 0 fun i o ho => by rw [Nat.zero_add]; exact h i o ho
  exact ⟨rs, h1, h2, fun i o r ho hr => by have := h3 i o r ho hr; rwa [Nat.zero_add] at this⟩

variable [Add V] [Sub V]

/-- **C90** (what holds): unpickling a pickled list of objects without `struct_SX` and `struct_MX_mutable` gives objects with the same
layouts, the same data for DM structs and new symbols for symbolic structs, if no struct of one of them is used (as its own struct, as
a nested struct or in a `shapestruct`) by an earlier object of the list; what was pickled before does not matter.  A `struct_MX` comes
without its expressions.
Missing: lists of objects that share structs, and `struct_SX` and `struct_MX_mutable`, for which the claim is false
(`C90_mixed`, `C90_stale`, `C90_mutable`), and the expressions of a `struct_MX` (`C90_lost`). -/
theorem C90_list_partial (fresh : ℕ → ℕ → V) (os : List (PObj V)) (cs : List CS) (hv : List.Forall₂ PObj.Valid os cs)
    (init : List (ℕ × PKeys V)) (hd : os.Pairwise fun x y => y.st.id ∉ x.st.ids) (hm : ∀ o ∈ os, o.kind ≠ .mutable) :
    ∃ rs, pickleObjs fresh os init = .ok rs ∧ rs.length = os.length ∧
      ∀ (i : ℕ) (o : PObj V) (r : Loaded V), os[i]? = some o → rs[i]? = some r → ∀ c, cs[i]? = some c → Restored (fresh i) c o.kind r := by
  refine pickleObjs_ok (R := fun i o r => ∀ c, cs[i]? = some c → Restored (fresh i) c o.kind r) fun i o ho => ?_
  have hmem := List.mem_of_getElem? ho
  have hget : dictGet (dumpObjs os init []) o.st.id = some (some (o.kind.store ((dictGet init o.st.id).getD {}))) := by
    obtain ⟨pre, post, e⟩ := List.append_of_mem hmem
    rw [e]
    refine dumpObjs_first pre post ?_ init [] rfl
    intro x hx
    rw [e, List.pairwise_append] at hd
    exact hd.2.2 x hx o List.mem_cons_self
  have hi : i < os.length := (List.getElem?_eq_some_iff.1 ho).1
  have hi' : i < cs.length := by rw [← hv.length_eq]; exact hi
  have hvi : o.Valid cs[i] := by
    have := List.forall₂_iff_get.1 hv
    have := this.2 i hi hi'
    have e : os.get ⟨i, hi⟩ = o := (List.getElem?_eq_some_iff.1 ho).2
    rw [e] at this
    exact this
  obtain ⟨r, h1, h2⟩ := loadObj_restored (fresh i) hvi hget rfl (o.kind.store_has _) (by
    intro m hk
    rw [hk]
    rfl) (hm o hmem)
  refine ⟨r, h1, fun c hc => ?_⟩
  rw [List.getElem?_eq_getElem hi'] at hc
  cases hc
  exact h2

/-- **C90**: a single object other than a `struct_SX` or `struct_MX_mutable`. -/
theorem C90_single (fresh : ℕ → ℕ → V) (o : PObj V) (c : CS) (hv : o.Valid c) (init : List (ℕ × PKeys V)) (hm : o.kind ≠ .mutable) :
    ∃ r, pickleObjs fresh [o] init = .ok [r] ∧ Restored (fresh 0) c o.kind r := by
  obtain ⟨rs, h1, h2, h3⟩ := C90_list_partial fresh [o] [c] (.cons hv .nil) init (by simp) (by simpa using hm)
  match rs, h2 with
  | [r], _ => exact ⟨r, h1, h3 0 o r rfl rfl c rfl⟩

omit [Add V] [Sub V] in
omit [Add V] [Sub V] in
/-- **C90** (false of the code): a `struct_SX` or `struct_MX_mutable` can be pickled but not be unpickled. -/
theorem C90_mutable (fresh : ℕ → ℕ → V) (os : List (PObj V)) (init : List (ℕ × PKeys V)) (o : PObj V) (ho : o ∈ os)
    (hwf : WFs o.st.struct.entries o.st.struct.order) (hm : o.kind = .mutable) :
    (∃ e, pickleObjs fresh os init = .error e) ∧ (os = [o] → pickleObjs fresh os init = .error .type) := by
  obtain ⟨c, ls, hc, h2, hb⟩ := ofStruct_built hwf
  have hnew : CS.new (stripAll o.st.struct.entries) (some o.st.struct.order) =
      .ok { c with struct := ⟨stripAll o.st.struct.entries, o.st.struct.order⟩ } := by
    rw [CS.new, Struct.new_strip hwf]
    simp only
    rw [CS.ofStruct_strip, hc]
    rfl
  have key : ∀ i, ∃ e, loadObj (fresh i) (dumpObjs os init []) o = .error e ∧ (os = [o] → e = .type) := by
    intro i
    obtain ⟨x, hx⟩ := dumpObjs_mem os ho init []
    cases hd : (x.getD {}).order with
    | none =>
      refine ⟨.key, loadObj_needs (fresh i) hwf hx rfl (by rw [hm]; simpa [PKind.Has] using hd), ?_⟩
      rintro rfl
      have := dumpObjs_first (o := o) [] [] (by simp) init [] rfl
      rw [List.nil_append, hx] at this
      cases this
      rw [hm] at hd
      simp [PKind.store] at hd
    | some y =>
      refine ⟨.type, ?_, fun _ => rfl⟩
      unfold loadObj
      simp only [hx, hm]
      show Except.bind (CS.new _ _) _ = _
      rw [hnew]
      simp only [Except.bind, hd]
      rfl
  refine ⟨?_, ?_⟩
  · obtain ⟨i, hi⟩ := List.getElem?_of_mem ho
    obtain ⟨e, he, _⟩ := key i
    exact pickleObjs_error hi ⟨e, he⟩
  · rintro rfl
    obtain ⟨e, he, h⟩ := key 0
    rw [h rfl] at he
    show Except.bind (loadObj (fresh 0) (dumpObjs [o] init []) o) _ = _
    rw [he]
    rfl

/-- **C90** (false of the code): a pickled `struct_MX` with at least one entry comes back without its expressions, and cannot be read. -/
theorem C90_lost (fresh : ℕ → ℕ → V) (o : PObj V) (c : CS) (hv : o.Valid c) (init : List (ℕ × PKeys V)) {order} (hk : o.kind = .veccat order)
    (hne : tops c.struct.entries c.struct.order ≠ []) :
    ∃ v, pickleObjs fresh [o] init = .ok [.veccat v] ∧ v.master = .error .generic ∧ ∀ pi, v.getitem pi = .error .generic := by
  obtain ⟨r, h1, h2⟩ := C90_single fresh o c hv init (by rw [hk]; simp)
  rw [hk] at h2
  cases r with
  | layout => exact h2.elim
  | obj => exact h2.elim
  | veccat v =>
    obtain ⟨-, h3, h4⟩ := h2
    have hm : v.master = .error .generic := by
      rw [VObj.master, if_pos]
      rw [List.any_eq_true]
      cases hs : v.storage with
      | nil =>
        rw [hs] at h4
        exact absurd (List.length_eq_zero_iff.1 h4.symm) hne
      | cons x l => exact ⟨x, List.mem_cons_self, by rw [h3 x (by rw [hs]; exact List.mem_cons_self)]; rfl⟩
    refine ⟨v, h1, hm, fun pi => ?_⟩
    rw [VObj.getitem, hm]
    rfl

/-- **C90**: lists of `CasadiStructure` objects can share structs. -/
theorem C90_layouts (fresh : ℕ → ℕ → V) (os : List (PObj V)) (cs : List CS) (hv : List.Forall₂ PObj.Valid os cs)
    (init : List (ℕ × PKeys V)) (hk : ∀ o ∈ os, o.kind = .layout) :
    ∃ rs, pickleObjs fresh os init = .ok rs ∧ rs.length = os.length ∧
      ∀ (i : ℕ) (o : PObj V) (r : Loaded V), os[i]? = some o → rs[i]? = some r → ∀ c, cs[i]? = some c →
        ∃ c', r = .layout c' ∧ SameLayout c c' := by
  refine pickleObjs_ok (R := fun i o r => ∀ c, cs[i]? = some c → ∃ c', r = .layout c' ∧ SameLayout c c') fun i o ho => ?_
  have hmem := List.mem_of_getElem? ho
  obtain ⟨x, hx⟩ := dumpObjs_mem os hmem init []
  have hi : i < os.length := (List.getElem?_eq_some_iff.1 ho).1
  have hi' : i < cs.length := by rw [← hv.length_eq]; exact hi
  have hvi : o.Valid cs[i] := by
    have := (List.forall₂_iff_get.1 hv).2 i hi hi'
    have e : os.get ⟨i, hi⟩ = o := (List.getElem?_eq_some_iff.1 ho).2
    rw [e] at this
    exact this
  obtain ⟨r, h1, h2⟩ := loadObj_restored (fresh i) hvi hx rfl (by rw [hk o hmem]; trivial) (by rw [hk o hmem]; simp)
    (by rw [hk o hmem]; simp)
  refine ⟨r, h1, fun c hc => ?_⟩
  rw [List.getElem?_eq_getElem hi'] at hc
  cases hc
  rw [hk o hmem] at h2
  cases r with
  | layout c' => exact ⟨c', rfl, h2⟩
  | obj => exact h2.elim
  | veccat => exact h2.elim

omit [Add V] [Sub V] in
/-- **C90** (false of the code): a list of objects cannot be unpickled if the struct of one of them was first written for an object
`o` that does not store the key that is needed (and no earlier pickling left it): it was the struct of `o` itself, and `o` is of
another kind, or it was inside the struct of `o`. -/
theorem C90_mixed (fresh : ℕ → ℕ → V) (o o' : PObj V) (post : List (PObj V)) (init : List (ℕ × PKeys V)) (ho : o' ∈ post)
    (hwf : WFs o'.st.struct.entries o'.st.struct.order) (hn : o.st.ids.Nodup) (hs : o'.st.id ∈ o.st.ids)
    (hinit : ¬ o'.kind.Has ((dictGet init o'.st.id).getD {}))
    (hkey : o'.st.id = o.st.id → ∀ d, ¬ o'.kind.Has d → ¬ o'.kind.Has (o.kind.store d)) :
    ∃ e, pickleObjs fresh (o :: post) init = .error e := by
  obtain ⟨i, hi⟩ := List.getElem?_of_mem (List.mem_cons_of_mem o ho)
  refine pickleObjs_error hi ⟨.key, ?_⟩
  have hd := o.st.dump_ids (dictSet init o.st.id (o.kind.store ((dictGet init o.st.id).getD {}))) [] hn (fun _ _ => rfl) hs
  refine loadObj_needs (fresh i) hwf (by rw [dumpObjs]; exact dumpObjs_mono _ _ _ hd) rfl ?_
  rw [dictGet_dictSet]
  split
  · rename_i h
    rw [← h] at hinit
    exact hkey h.symm _ hinit
  · exact hinit

/-- **C90** (false of the code): a DM struct that is pickled in a list after the struct itself, when another DM struct of the same
struct was pickled before, comes back with the data of that other one. -/
theorem C90_stale (fresh : ℕ → ℕ → V) (st : PStruct) (c : CS) (order) (m m0 : List V) (hv : (⟨st, .dm m0⟩ : PObj V).Valid c)
    (init : List (ℕ × PKeys V)) {d : PKeys V} (hi : dictGet init st.id = some d) (hd : d.master = some m0) :
    ∃ r r', pickleObjs fresh [⟨st, .plain order⟩, ⟨st, .dm m⟩] init = .ok [r, .obj r'] ∧ SameAs c m0 r' := by
  have hget := dumpObjs_first (o := ⟨st, .plain order⟩) [] [⟨st, .dm m⟩] (by simp) init [] rfl
  simp only [List.nil_append, hi, Option.getD_some, PKind.store] at hget
  obtain ⟨r, h1, h2⟩ := loadObj_restored (fresh 0) (o := ⟨st, .plain order⟩) ⟨hv.1, hv.2.1, by simp⟩ hget rfl
    (by simp [PKind.Has]) (by simp) (by simp)
  obtain ⟨r', h3, h4⟩ := loadObj_restored (fresh 1) (o := ⟨st, .dm m0⟩) hv hget rfl (by simp [PKind.Has, hd]) (by simp [hd]) (by simp)
  cases r' with
  | layout => exact h4.elim
  | veccat => exact h4.elim
  | obj r' =>
    refine ⟨r, r', ?_, h4⟩
    have h3' : loadObj (fresh 1) (dumpObjs [⟨st, .plain order⟩, ⟨st, .dm m⟩] init []) ⟨st, .dm m⟩ = .ok (.obj r') := h3
    show Except.bind (loadObj (fresh 0) _ _) _ = _
    rw [h1]
    show Except.bind (loadObj (fresh 1) _ _) _ = _
    rw [h3']
    rfl

/-- **C90** (counterexamples): a struct together with a DM struct of it in either order, and a struct with a nested struct together with
the nested struct. -/
theorem C90_refuted (fresh : ℕ → ℕ → ℤ) : (∃ e, pickleObjs fresh [⟨exPickle, .plain none⟩, ⟨exPickle, .dm [1]⟩] [] = .error e) ∧
    (∃ e, pickleObjs fresh [⟨exPickle, .dm [1]⟩, ⟨exPickle, .plain none⟩] [] = .error e) ∧
    ∃ e, pickleObjs fresh [⟨.mk 8 [.nested "n" [] exPickle] [.one "n"], .plain none⟩, ⟨exPickle, .plain none⟩] [] = .error e := by
  have hwf : WFs exPickle.struct.entries exPickle.struct.order := oneStruct_wf (Sparsity.dense_canon _ _)
  refine ⟨?_, ?_, ?_⟩
  · refine C90_mixed fresh _ ⟨exPickle, .dm [1]⟩ _ _ (List.mem_singleton_self _) hwf ?_ ?_ ?_ ?_
    · simp [exPickle, PStruct.ids, idsEntries, PEntry.ids, idsStructs]
    · simp [exPickle, PStruct.ids, PStruct.id]
    · simp [PKind.Has, dictGet]
    · intro _ d h; simpa [PKind.Has, PKind.store] using h
  · refine C90_mixed fresh _ ⟨exPickle, .plain none⟩ _ _ (List.mem_singleton_self _) hwf ?_ ?_ ?_ ?_
    · simp [exPickle, PStruct.ids, idsEntries, PEntry.ids, idsStructs]
    · simp [exPickle, PStruct.ids, PStruct.id]
    · simp [PKind.Has, dictGet]
    · intro _ d h; simpa [PKind.Has, PKind.store] using h
  · refine C90_mixed fresh _ ⟨exPickle, .plain none⟩ _ _ (List.mem_singleton_self _) hwf ?_ ?_ ?_ ?_
    · simp [exPickle, PStruct.ids, idsEntries, PEntry.ids, idsStructs]
    · simp [exPickle, PStruct.ids, PStruct.id, idsEntries, PEntry.ids, idsStructs]
    · simp [PKind.Has, dictGet]
    · intro h; simp [exPickle, PStruct.id] at h

/-- A DM struct, a symbolic struct and a `struct`, all with structs of their own. -/
example : ∃ c1 c2 c3 r1 r2 r3, pickleObjs (fun n k => (100 * n + k : ℤ))
    [⟨exPickle, .dm [1]⟩, ⟨.mk 8 [.nested "n" [2] exPickle] [.one "n"], .symMX none⟩, ⟨.mk 9 [] [], .plain none⟩] [(7, {})] =
      .ok [.obj r1, .obj r2, .layout r3] ∧ SameAs c1 [1] r1 ∧ SameAs c2 [100, 101] r2 ∧ SameLayout c3 r3 := by
  have hwf : WFs exPickle.struct.entries exPickle.struct.order := oneStruct_wf (Sparsity.dense_canon _ _)
  have hw2 : WFs [Entry.nested "n" [2] exPickle.struct.entries exPickle.struct.order] [.one "n"] :=
    .mk (by simp) (by simp [Entry.name, OrderItem.names]) (by simp) (by
      intro n d es o h
      simp only [List.mem_singleton, Entry.nested.injEq] at h
      obtain ⟨-, -, rfl, rfl⟩ := h
      exact hwf)
  have hw3 : WFs [] [] := .mk (by simp) (by simp) (by simp) (by simp)
  obtain ⟨c1, h1, hz1, -⟩ := C39_size exPickle.struct hwf
  obtain ⟨c2, h2, hz2, -⟩ := C39_size ⟨_, _⟩ hw2
  obtain ⟨c3, h3, hz3, -⟩ := C39_size ⟨_, _⟩ hw3
  have hz1 : c1.size = 1 := hz1
  have hz2 : c2.size = 2 := hz2
  obtain ⟨rs, k1, k2, k3⟩ := C90_list_partial (fun n k => (100 * n + k : ℤ))
    [⟨exPickle, .dm [1]⟩, ⟨.mk 8 [.nested "n" [2] exPickle] [.one "n"], .symMX none⟩, ⟨.mk 9 [] [], .plain none⟩] [c1, c2, c3]
    (.cons ⟨hwf, h1, by simp [hz1]⟩ (.cons ⟨hw2, h2, by simp⟩ (.cons ⟨hw3, h3, by simp⟩ .nil))) [(7, {})]
    (by simp [exPickle, PStruct.ids, PStruct.id, idsEntries, PEntry.ids, idsStructs]) (by simp)
  match rs, k2 with
  | [r1, r2, r3], _ =>
    have e1 := k3 0 _ r1 rfl rfl c1 rfl
    have e2 := k3 1 _ r2 rfl rfl c2 rfl
    have e3 := k3 2 _ r3 rfl rfl c3 rfl
    match r1, r2, r3, e1, e2, e3 with
    | .obj r1, .obj r2, .layout r3, e1, e2, e3 =>
      refine ⟨c1, c2, c3, r1, r2, r3, k1, e1, ?_, e3⟩
      have e2 : SameAs c2 ((List.range c2.size).map fun k : ℕ => (100 * (1 : ℕ) + (k : ℤ) : ℤ)) r2 := e2
      rw [hz2] at e2
      exact e2

/-- C90 for single objects over `exPickle`: a DM struct comes back; a mutable struct raises TypeError; a `struct_MX` comes back
without its expressions; two layouts with one struct both come back; and a `struct` before a DM struct makes it come back with
the content pickled earlier. -/
example (fresh : ℕ → ℕ → ℤ) : ∃ c, CS.ofStruct exPickle.struct = .ok c ∧
    (∃ r, pickleObjs fresh [⟨exPickle, .dm [5]⟩] [] = .ok [r] ∧ Restored (fresh 0) c (.dm [5]) r) ∧
    pickleObjs fresh [⟨exPickle, .mutable⟩] [] = .error .type ∧
    (∃ v, pickleObjs fresh [⟨exPickle, .veccat none⟩] [] = .ok [.veccat v] ∧ v.master = .error .generic) ∧
    (∃ rs, pickleObjs fresh [⟨exPickle, .layout⟩, ⟨exPickle, .layout⟩] [] = .ok rs ∧ rs.length = 2) ∧
    ∃ r r', pickleObjs fresh [⟨exPickle, .plain none⟩, ⟨exPickle, .dm [5]⟩] [(7, { master := some [4] })] = .ok [r, .obj r'] ∧
      SameAs c [4] r' := by
  have hwf : WFs exPickle.struct.entries exPickle.struct.order := oneStruct_wf (Sparsity.dense_canon _ _)
  obtain ⟨c, h, hz, -⟩ := C39_size exPickle.struct hwf
  have hz : c.size = 1 := hz
  have hs : c.struct = exPickle.struct := ofStruct_struct h
  refine ⟨c, h, ?_, ?_, ?_, ?_, ?_⟩
  · exact C90_single fresh ⟨exPickle, .dm [5]⟩ c ⟨hwf, h, by simp [hz]⟩ [] (by simp)
  · exact (C90_mutable fresh [⟨exPickle, .mutable⟩] [] _ (List.mem_singleton_self _) hwf rfl).2 rfl
  · obtain ⟨v, h1, h2, -⟩ := C90_lost fresh ⟨exPickle, .veccat none⟩ c ⟨hwf, h, by simp⟩ [] rfl (by rw [hs]; decide)
    exact ⟨v, h1, h2⟩
  · obtain ⟨rs, h1, h2, -⟩ := C90_layouts fresh [⟨exPickle, .layout⟩, ⟨exPickle, .layout⟩] [c, c]
      (.cons ⟨hwf, h, by simp⟩ (.cons ⟨hwf, h, by simp⟩ .nil)) [] (by simp)
    exact ⟨rs, h1, h2⟩
  · exact C90_stale fresh exPickle c none [5] [4] ⟨hwf, h, by simp [hz]⟩ [(7, { master := some [4] })] rfl rfl

end CE.St
