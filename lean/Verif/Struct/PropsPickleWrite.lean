import Verif.Struct.LemPickleWrite
import Verif.Struct.PropsPickleAll
import Verif.Struct.Prefix

/-! # Writing to unpickled objects, unpickled prefixes (C142) -/

namespace CE.St

/-- `pickle.loads(pickle.dumps(p))` for a `Prefixer` of a `DMStruct` object: `__getstate__` and `__setstate__` (structure3.py:708-712) keep
the object, the prefix and `castmaster`; the object is pickled as in `pickleList`.  The prefix, of names, numbers and slices, is restored
by `pickle` as it is.  Simplification: the object has no `DataReference`. -/
def picklePrefix {V : Type} [Zero V] (o : DMObj V) (pre : List (PIdx (PyFn V))) (castmaster : Bool) (init : List (ℕ × List V)) :
    Except PyErr (Prefixer V) := do
  let r ← loadOne (dumpAll [o] init []) o.st
  pure { obj := r, pre := pre, castmaster := castmaster }

variable {V : Type} [Zero V] [Add V] [Sub V]

omit [Add V] [Sub V] in
theorem loadOne_obj {memo : Memo V} {st : PStruct} (hwf : WFs st.struct.entries st.struct.order) {c : CS}
    (hc : CS.ofStruct st.struct = .ok c) {r : Obj V} (h : loadOne memo st = .ok r) : r = ⟨c.restored, r.master, []⟩ := by
  obtain ⟨c', ls, h1, h2, hb⟩ := ofStruct_built hwf
  rw [hc] at h1
  cases h1
  rw [loadOne] at h
  split at h
  · next m _ =>
    change Except.bind (CS.new _ _) _ = _ at h
    rw [CS.new, Struct.new_strip hwf] at h
    simp only at h
    rw [CS.ofStruct_strip, hc] at h
    change newMatrixStruct _ _ = _ at h
    rw [newMatrixStruct] at h
    split at h
    · cases h
    · split at h
      · cases h
      · cases h
        rw [CS.restored, h2]
  · cases h

omit [Add V] [Sub V] in
theorem pickleList_obj {os : List (DMObj V)} {init : List (ℕ × List V)} {rs : List (Obj V)} (h : pickleList os init = .ok rs)
    {i : ℕ} {o : DMObj V} {r : Obj V} (ho : os[i]? = some o) (hr : rs[i]? = some r) :
    loadOne (dumpAll os init []) o.st = .ok r := by
  rw [pickleList] at h
  generalize dumpAll os init [] = memo at h
  induction os generalizing rs i with
  | nil => simp at ho
  | cons x os ih =>
    rw [List.mapM_cons] at h
    cases h1 : loadOne memo x.st with
    | error e => rw [h1] at h; cases h
    | ok y =>
      rw [h1] at h
      cases h2 : os.mapM fun o => loadOne memo o.st with
      | error e => rw [h2] at h; cases h
      | ok ys =>
        rw [h2] at h
        cases h
        cases i with
        | zero =>
          simp only [List.getElem?_cons_zero, Option.some.injEq] at ho hr
          subst ho hr
          exact h1
        | succ i => exact ih (by simpa using ho) (by simpa using hr) h2

theorem CS.restored_same (c : CS) (m : List V) : SameAs c m (⟨c.restored, m, []⟩ : Obj V) :=
  ⟨rfl, rfl, rfl, rfl, rfl, fun pi => getitem_strip c.struct c rfl m pi⟩

theorem setAll_restored (c : CS) (hs : Prims (fun p => p.symm = false) c.struct.entries)
    (ws : List (List (PIdx (PyFn V)) × Pay V)) : ∀ m : List V,
    (⟨c.restored, m, []⟩ : Obj V).setAll ws = (((⟨c, m, []⟩ : Obj V).setAll ws).1,
      ⟨c.restored, ((⟨c, m, []⟩ : Obj V).setAll ws).2.master, []⟩) := by
  induction ws with
  | nil => intro m; rfl
  | cons w ws ih =>
    intro m
    obtain ⟨pi, v⟩ := w
    have h1 : ((⟨c, m, []⟩ : Obj V).setitem pi v).2 = ⟨c, ((⟨c, m, []⟩ : Obj V).setitem pi v).2.master, []⟩ := by
      rw [Obj.setitem]
      rcases c.struct.traverse (setDisp c.map) pi v m with ⟨_ | _, _⟩ <;> rfl
    rw [Obj.setAll, Obj.setAll, setitem_strip c hs m pi v]
    rcases h2 : (⟨c, m, []⟩ : Obj V).setitem pi v with ⟨r, o'⟩
    rw [h2] at h1
    simp only at h1
    cases r with
    | error e => rfl
    | ok u =>
      simp only
      rw [ih, ← h1]

/-- **C142** (structs without entries of type 'symm'): whatever else was pickled, assignments to an unpickled object have the same outcomes
as those to an object with the original struct, and what they leave has the same layout and the same data and reads the same. -/
theorem C142_write (os : List (DMObj V)) (init : List (ℕ × List V)) (rs : List (Obj V)) (h : pickleList os init = .ok rs)
    (i : ℕ) (o : DMObj V) (r : Obj V) (ho : os[i]? = some o) (hr : rs[i]? = some r)
    (hwf : WFs o.st.struct.entries o.st.struct.order) (c : CS) (hc : CS.ofStruct o.st.struct = .ok c)
    (hs : Prims (fun p => p.symm = false) o.st.struct.entries) (ws : List (List (PIdx (PyFn V)) × Pay V)) :
    (r.setAll ws).1 = ((⟨c, r.master, []⟩ : Obj V).setAll ws).1 ∧
      SameAs c ((⟨c, r.master, []⟩ : Obj V).setAll ws).2.master (r.setAll ws).2 := by
  have hst : c.struct = o.st.struct := by
    obtain ⟨c', ls, h1, h2, -⟩ := ofStruct_built hwf
    rw [hc] at h1
    cases h1
    exact h2
  have h1 := setAll_restored c (by rw [hst]; exact hs) ws r.master
  rw [← loadOne_obj hwf hc (pickleList_obj h ho hr)] at h1
  rw [h1]
  exact ⟨rfl, c.restored_same _⟩

/-- **C142** (what holds for all structs): if assignments to an unpickled object succeed, so do those to an object with the original struct,
with the same data afterwards.
Missing: that assignments which the original object accepts are accepted by the unpickled one, which is false for entries of type 'symm'
(`C142_symm`, `C142_refuted`). -/
theorem C142_success_partial (os : List (DMObj V)) (init : List (ℕ × List V)) (rs : List (Obj V)) (h : pickleList os init = .ok rs)
    (i : ℕ) (o : DMObj V) (r : Obj V) (ho : os[i]? = some o) (hr : rs[i]? = some r)
    (hwf : WFs o.st.struct.entries o.st.struct.order) (c : CS) (hc : CS.ofStruct o.st.struct = .ok c)
    (ws : List (List (PIdx (PyFn V)) × Pay V)) (hok : (r.setAll ws).1 = .ok ()) :
    (⟨c, r.master, []⟩ : Obj V).setAll ws = (.ok (), ⟨c, (r.setAll ws).2.master, []⟩) ∧
      SameAs c (r.setAll ws).2.master (r.setAll ws).2 := by
  rw [loadOne_obj hwf hc (pickleList_obj h ho hr)] at hok ⊢
  simp only
  generalize r.master = m at hok ⊢
  clear h ho hr
  induction ws generalizing m with
  | nil => exact ⟨rfl, c.restored_same _⟩
  | cons w ws ih =>
    obtain ⟨pi, v⟩ := w
    rw [Obj.setAll] at hok
    rw [Obj.setAll, Obj.setAll]
    have h1 : ((⟨c.restored, m, []⟩ : Obj V).setitem pi v).2 =
        ⟨c.restored, ((⟨c.restored, m, []⟩ : Obj V).setitem pi v).2.master, []⟩ := by
      rw [Obj.setitem]
      rcases c.restored.struct.traverse (setDisp c.restored.map) pi v m with ⟨_ | _, _⟩ <;> rfl
    have h2 := setitem_strip_ref c m pi v
    rcases h3 : (⟨c.restored, m, []⟩ : Obj V).setitem pi v with ⟨q, o'⟩
    rw [h3] at hok h1 h2
    cases q with
    | error e => cases hok
    | ok u =>
      simp only at hok h1 h2 ⊢
      rw [h2 trivial]
      simp only
      rw [h1] at hok ⊢
      exact ih _ hok

omit [Zero V] [Add V] [Sub V] in
theorem IsLeaf.strip {es : List Entry} {a : CIdx} {p : Prim} (h : IsLeaf es a p) : IsLeaf (stripAll es) a p.strip := by
  induction h with
  | prim hm hd =>
    refine .prim (dims := _) ?_ hd
    rw [stripAll_eq]
    exact List.mem_map.2 ⟨_, hm, rfl⟩
  | nested hm hd _ ih =>
    refine .nested (o := by assumption) ?_ hd ih
    rw [stripAll_eq]
    exact List.mem_map.2 ⟨_, hm, rfl⟩

/-- **C142 fails** for entries of type 'symm': the unpickled entry has no `originalsparsity`, so that a scalar can be assigned to it as before,
but every assignment of a matrix raises, and changes nothing. -/
theorem C142_symm (os : List (DMObj V)) (init : List (ℕ × List V)) (rs : List (Obj V)) (h : pickleList os init = .ok rs)
    (i : ℕ) (o : DMObj V) (r : Obj V) (ho : os[i]? = some o) (hr : rs[i]? = some r)
    (hwf : WFs o.st.struct.entries o.st.struct.order) (c : CS) (hc : CS.ofStruct o.st.struct = .ok c)
    (a : CIdx) (p : Prim) (ha : IsLeaf o.st.struct.entries a p) (hs : p.symm = true) (pay : Pay V) (m : SMat V)
    (hp : IsValue pay m) :
    (m.sp.rows = 1 ∧ m.sp.cols = 1 → (r.setitem (a.map .ofKey) pay).1 = ((⟨c, r.master, []⟩ : Obj V).setitem (a.map .ofKey) pay).1 ∧
      (r.setitem (a.map .ofKey) pay).2.master = ((⟨c, r.master, []⟩ : Obj V).setitem (a.map .ofKey) pay).2.master) ∧
    (¬ (m.sp.rows = 1 ∧ m.sp.cols = 1) → r.setitem (a.map .ofKey) pay = (.error .generic, r)) := by
  obtain ⟨c', ls, hc', hst, hb⟩ := ofStruct_built hwf
  rw [hc] at hc'
  cases hc'
  rw [← hst] at hwf ha
  obtain ⟨idx, hg, _⟩ := hb.part hwf (.leaf ha)
  have hro := loadOne_obj (by rw [← hst]; exact hwf) hc (pickleList_obj h ho hr)
  have h1 := Obj.setitem_part (⟨c, r.master, []⟩ : Obj V) hwf (.leaf ha) [] (fun _ => rfl) pay
  have h2 := Obj.setitem_part (⟨c.restored, r.master, []⟩ : Obj V) hwf.strip (.leaf ha.strip) [] (fun _ => rfl) pay
  rw [List.append_nil] at h1 h2
  rw [← hro] at h2
  obtain ⟨sp, sy, og, ss⟩ := p
  simp only at hs
  subst hs
  simp only [Prim.strip] at h2
  rw [h1, h2]
  simp only
  have hmap : r.cs.map = c.map := by rw [hro]; rfl
  constructor
  · intro hsc
    have hsc : m.isScalar = true := by simpa [SMat.isScalar] using hsc
    have : setCall r.cs.map pay a (some []) (some ⟨sp, true, none, ss⟩) r.master =
        setCall c.map pay a (some []) (some ⟨sp, true, og, ss⟩) r.master := by
      rw [hmap]
      unfold setCall
      rw [hp.toMat]
      simp only [hg, Option.getD_some, performExtraIndex, hsc, if_true]
    rw [this]
    exact ⟨rfl, rfl⟩
  · intro hsc
    have hsc : m.isScalar = false := by
      rw [SMat.isScalar, decide_eq_false_iff_not]; exact hsc
    have : setCall r.cs.map pay a (some []) (some ⟨sp, true, none, ss⟩) r.master = (.error .attribute, r.master) := by
      rw [hmap]
      unfold setCall
      rw [hp.toMat]
      simp only [hg, Option.getD_some, performExtraIndex, hsc, Bool.false_eq_true, if_false]
    rw [this]
    rfl

/-- **C142** (prefixes): a `Prefixer` of a DM struct is unpickled with the same prefix and `castmaster`; `p()`, `p[...]`, the matrix that it
stands for in a formula and its attributes are those of the original one; for structs without entries of type 'symm', assignments through
it have the same outcome and the same effect. -/
theorem C142_prefix (o : DMObj V) (c : CS) (hv : o.Valid c) (init : List (ℕ × List V)) (pre : List (PIdx (PyFn V))) (cm : Bool) :
    ∃ q, picklePrefix o pre cm init = .ok q ∧ q.pre = pre ∧ q.castmaster = cm ∧ SameAs c o.master q.obj ∧
      let p : Prefixer V := ⟨⟨c, o.master, []⟩, pre, cm, none⟩
      q.call = p.call ∧ (∀ y, q.getitem y = p.getitem y) ∧ q.cast = p.cast ∧
      (∀ {α : Type} (attr : SMat V → α), q.getattr attr = p.getattr attr) ∧
      (Prims (fun p => p.symm = false) o.st.struct.entries → ∀ y v, (q.setitem y v).1 = (p.setitem y v).1 ∧
        SameAs c (p.setitem y v).2.obj.master (q.setitem y v).2.obj) := by
  obtain ⟨r, h1, h2⟩ := C56_single o c hv init
  have h3 := pickleList_obj h1 (i := 0) (o := o) (r := r) rfl rfl
  have hro := loadOne_obj hv.1 hv.2.1 h3
  have hst : c.struct = o.st.struct := by
    obtain ⟨c', ls, h1, h2, -⟩ := ofStruct_built hv.1
    rw [hv.2.1] at h1
    cases h1
    exact h2
  refine ⟨⟨r, pre, cm, none⟩, ?_, rfl, rfl, h2, h2.read _, fun y => h2.read _, ?_, ?_, ?_⟩
  · rw [picklePrefix, h3]; rfl
  · simp only [Prefixer.cast, Prefixer.call, h2.read, h2.cat]
  · intro α attr
    simp only [Prefixer.getattr, h2.cat]
  · intro hs y v
    have h4 := setitem_strip c (by rw [hst]; exact hs) o.master (pre ++ y) v
    simp only [Prefixer.setitem]
    rw [hro, h2.cat, h4]
    exact ⟨rfl, c.restored_same _⟩

/-- A struct with a symmetric 2 x 2 matrix. -/
def exPickleSymm : PStruct := .mk 7 [.prim "P" [] symm2 []] [.one "P"]

/-- **C142** is false of the code: a symmetric matrix can be assigned to an entry of type 'symm', but no longer after pickling. -/
theorem C142_refuted : ∃ (c : CS) (r : Obj ℚ) (v : Pay ℚ), DMObj.Valid ⟨exPickleSymm, [1, 2, 3]⟩ c ∧
    pickleList [⟨exPickleSymm, [1, 2, 3]⟩] [] = .ok [r] ∧ SameAs c [1, 2, 3] r ∧
    (∃ m R, (⟨c, [1, 2, 3], []⟩ : Obj ℚ).setitem [.str "P"] v = (.ok (), ⟨c, m, []⟩) ∧
      (⟨c, m, []⟩ : Obj ℚ).getitem [.str "P"] = .ok (.leaf R) ∧ R.at' (0, 1) = 5 ∧ R.at' (1, 0) = 5) ∧
    r.setitem [.str "P"] v = (.error .generic, r) := by
  have hwf := oneStruct_wf symm2_canon
  obtain ⟨c, h1, h2, hb⟩ := oneStruct_built symm2_canon
  have hsize : c.size = 3 := by rw [hb.size]; rfl
  have hval : DMObj.Valid ⟨exPickleSymm, [(1 : ℚ), 2, 3]⟩ c := ⟨hwf, h1, by rw [hsize]; rfl⟩
  obtain ⟨r, p1, p2⟩ := C56_single _ c hval []
  have hv : ∀ x : ℚ, x + x - x = x := fun x => by ring
  obtain ⟨m, R, w1, w2, w3, _, w4, w5, _, _⟩ := C55_write_read_partial hv _ hwf c h1 [1, 2, 3] (by rw [hsize]; rfl) [.str "P"] symm2 _
    (oneStruct_leaf _) symm2_isSymm _ _ (.mat ⟨.dense 2 2, [4, 5, 5, 6]⟩) ⟨Sparsity.dense_canon _ _, rfl⟩ _ (.inl ⟨rfl, rfl⟩)
  have h01 := w5 0 1 (by rw [w4]; decide) (by decide)
  have hat : (⟨.dense 2 2, [4, 5, 5, 6]⟩ : SMat ℚ).at' (0, 1) = 5 := rfl
  refine ⟨c, r, _, hval, p1, p2, ⟨m, R, w1, w3, h01.1.trans hat, h01.2.trans hat⟩, ?_⟩
  · exact (C142_symm _ _ _ p1 0 _ r rfl rfl hwf c h1 [.str "P"] symm2 (oneStruct_leaf _) rfl _ _
      (.mat ⟨.dense 2 2, [4, 5, 5, 6]⟩)).2 (by decide)

/-- After pickling, a scalar can still be assigned to the entry of type 'symm', as before; then all its elements have this value. -/
example : ∃ (c : CS) (r : Obj ℚ), pickleList [⟨exPickleSymm, [1, 2, 3]⟩] [] = .ok [r] ∧
    ∃ m R, (r.setitem [.str "P"] (.mat ⟨.dense 1 1, [4]⟩)) = (.ok (), ⟨c.restored, m, []⟩) ∧
      (⟨c.restored, m, []⟩ : Obj ℚ).getitem [.str "P"] = .ok (.leaf R) ∧ R.at' (1, 0) = 4 ∧
      (⟨c, [1, 2, 3], []⟩ : Obj ℚ).setAll [([.str "P"], .mat ⟨.dense 1 1, [4]⟩)] = (.ok (), ⟨c, m, []⟩) := by
  have hwf := oneStruct_wf symm2_canon
  obtain ⟨c, h1, h2, hb⟩ := oneStruct_built symm2_canon
  have hsize : c.size = 3 := by rw [hb.size]; rfl
  have hval : DMObj.Valid ⟨exPickleSymm, [(1 : ℚ), 2, 3]⟩ c := ⟨hwf, h1, by rw [hsize]; rfl⟩
  obtain ⟨r, p1, p2⟩ := C56_single _ c hval []
  have hro := loadOne_obj (st := exPickleSymm) hwf h1 (pickleList_obj p1 (i := 0) rfl rfl)
  have hv : ∀ x : ℚ, x + x - x = x := fun x => by ring
  obtain ⟨m, R, w1, w2, w3, _, w4, w5, _, _⟩ := C55_write_read_partial hv _ hwf c h1 [1, 2, 3] (by rw [hsize]; rfl) [.str "P"] symm2 _
    (oneStruct_leaf _) symm2_isSymm _ _ (.mat ⟨.dense 1 1, [4]⟩) ⟨Sparsity.dense_canon _ _, rfl⟩ _ (.inr ⟨rfl, rfl, rfl⟩)
  obtain ⟨q1, q2⟩ := (C142_symm _ _ _ p1 0 _ r rfl rfl hwf c h1 [.str "P"] symm2 (oneStruct_leaf _) rfl _ _
    (.mat ⟨.dense 1 1, [4]⟩)).1 ⟨rfl, rfl⟩
  rw [p2.cat] at q1 q2
  have w1' : (⟨c, [1, 2, 3], []⟩ : Obj ℚ).setitem ([Key.str "P"].map .ofKey) (.mat ⟨.dense 1 1, [4]⟩) = (.ok (), ⟨c, m, []⟩) := w1
  rw [w1'] at q1 q2
  have hset : r.setitem ([Key.str "P"].map .ofKey) (.mat ⟨.dense 1 1, [4]⟩) = (.ok (), ⟨c.restored, m, []⟩) := by
    have hcs : (r.setitem ([Key.str "P"].map .ofKey) (.mat ⟨.dense 1 1, [4]⟩)).2 =
        ⟨c.restored, (r.setitem ([Key.str "P"].map .ofKey) (.mat ⟨.dense 1 1, [4]⟩)).2.master, []⟩ := by
      rw [hro, Obj.setitem]
      rcases c.restored.struct.traverse (setDisp c.restored.map) ([Key.str "P"].map .ofKey) (.mat ⟨.dense 1 1, [(4 : ℚ)]⟩) r.master with
        ⟨_ | _, _⟩ <;> rfl
    exact Prod.ext q1 (hcs.trans (by rw [q2]))
  have hall : r.setAll [([Key.str "P"].map .ofKey, .mat ⟨.dense 1 1, [4]⟩)] = (.ok (), ⟨c.restored, m, []⟩) := by
    rw [Obj.setAll, hset]
    rfl
  have hsuc := (C142_success_partial _ _ _ p1 0 _ r rfl rfl hwf c h1 _ (by rw [hall])).1
  rw [hall, p2.cat] at hsuc
  refine ⟨c, r, p1, m, R, hset, ?_, (w5 0 1 (by rw [w4]; decide) (by decide)).2, hsuc⟩
  rw [(c.restored_same m).read]
  exact w3

/-- Assignments to an unpickled struct with one scalar, also through an unpickled prefix. -/
example : ∃ (r : Obj ℤ) (q : Prefixer ℤ), pickleList [⟨exPickle, [(1 : ℤ)]⟩] [] = .ok [r] ∧
    picklePrefix ⟨exPickle, [(1 : ℤ)]⟩ [.str "P"] true [] = .ok q ∧
    (r.setAll [([.str "P"], .num 4), ([.str "P"], .num 5)]).1 = .ok () ∧
    (r.setAll [([.str "P"], .num 4), ([.str "P"], .num 5)]).2.getitem [.str "P"] = .ok (.leaf (.scalar 5)) ∧
    (q.setitem [] (.num 5)).1 = .ok () ∧ (q.setitem [] (.num 5)).2.obj.getitem [.str "P"] = .ok (.leaf (.scalar 5)) ∧
    q.cast = .ok (.leaf (.col [1])) := by
  have hwf : WFs (oneStruct ⟨.dense 1 1, false, none, none⟩).entries (oneStruct ⟨.dense 1 1, false, none, none⟩).order :=
    oneStruct_wf (Sparsity.dense_canon _ _)
  obtain ⟨c, hval⟩ := exPickle_valid 1
  have hc : CS.ofStruct (oneStruct ⟨.dense 1 1, false, none, none⟩) = .ok c := hval.2.1
  obtain ⟨r, p1, p2⟩ := C56_single _ c hval []
  obtain ⟨q, q1, q2, q3, q4, -, -, q5, -, q6⟩ := C142_prefix _ c hval [] [.str "P"] true
  have hs : Prims (fun p => p.symm = false) exPickle.struct.entries := ⟨rfl, trivial⟩
  obtain ⟨w1, w2⟩ := C142_write _ _ _ p1 0 _ r rfl rfl hwf c hc hs [([.str "P"], .num 4), ([.str "P"], .num 5)]
  obtain ⟨w3, w4⟩ := q6 hs [] (.num 5)
  have wr : ∀ (m : List ℤ) (v : ℤ), m.length = c.size → ∃ m', (⟨c, m, []⟩ : Obj ℤ).setitem [.str "P"] (.num v) = (.ok (), ⟨c, m', []⟩) ∧
      m'.length = c.size ∧ (⟨c, m', []⟩ : Obj ℤ).getitem [.str "P"] = .ok (.leaf (.scalar v)) := by
    intro m v hm
    obtain ⟨i, -, -, h⟩ := C43_write_read _ hwf c hc m hm [.str "P"] _ _ (.leaf (oneStruct_leaf _)) (by rintro p ⟨⟩; rfl)
    obtain ⟨m', h1, h2, h3, -⟩ := h (.num v) _ (.num v) ⟨Sparsity.dense_canon _ _, rfl⟩ _ (.scalar rfl rfl)
    exact ⟨m', h1, h2.trans hm, h3⟩
  rw [p2.cat] at w1 w2
  obtain ⟨m1, a1, a2, a3⟩ := wr [1] 4 hval.2.2
  obtain ⟨m2, b1, b2, b3⟩ := wr m1 5 a2
  obtain ⟨m3, d1, d2, d3⟩ := wr [1] 5 hval.2.2
  have e : (⟨c, [1], []⟩ : Obj ℤ).setAll [([.str "P"], .num 4), ([.str "P"], .num 5)] = (.ok (), ⟨c, m2, []⟩) := by
    rw [Obj.setAll, a1]
    simp only
    rw [Obj.setAll, b1]
    rfl
  have e' : (Prefixer.setitem ⟨⟨c, [1], []⟩, [.str "P"], true, none⟩ [] (.num 5)) =
      (.ok (), ⟨⟨c, m3, []⟩, [.str "P"], true, none⟩) := by
    rw [Prefixer.setitem, List.append_nil, d1]
  simp only [e] at w1 w2
  simp only [e'] at w3 w4
  exact ⟨r, q, p1, q1, w1, (w2.read _).trans b3, w3, (w4.read _).trans d3, q5⟩

end CE.St
