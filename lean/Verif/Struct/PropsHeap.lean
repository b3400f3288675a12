import Verif.Struct.LemHeap

/-! # C72: which objects share their data -/

namespace CE.St

variable {V : Type} [Zero V]

/-- **C72**, new objects: an object made from a matrix refers to this matrix itself, unless the matrix is a scalar that has to be
expanded; then it refers to a new matrix that nothing else refers to.  No matrix changes. -/
theorem C72_new (st : Heap V) (k : Kind) (r : ℕ) (m : SMat V) (p : Prefixer V) (hm : st.mats[r]? = some m)
    (hp : k.make m = .ok p) :
    ∃ w extra, st.step (.new k r) = (.ok (), ⟨st.mats ++ extra, st.views ++ [w]⟩) ∧ w.kind = k ∧
      (¬ (m.sp.rows = 1 ∧ m.sp.cols = 1) ∨ k.copies = true → w.mat = r ∧ extra = []) ∧
      (w.mat = r ∧ extra = [] ∨ w.mat = st.mats.length ∧ ∃ m', extra = [m']) := by
  simp only [Heap.step, Heap.new, hm, hp]
  cases hx : k.expands m with
  | true =>
    rw [if_pos rfl]
    refine ⟨_, _, rfl, rfl, ?_, .inr ⟨rfl, _, rfl⟩⟩
    rintro (h | h)
    · cases k with
      | repeated c => cases hx
      | squaredRepeated c => cases hx
      | _ =>
        simp only [Kind.expands, decide_eq_true_eq] at hx
        exact absurd ⟨hx.1, hx.2.1⟩ h
    · cases k with
      | repeated c => cases hx
      | squaredRepeated c => cases hx
      | _ => cases h
  | false =>
    rw [if_neg (by simp)]
    exact ⟨_, [], by rw [List.append_nil], rfl, fun _ => ⟨rfl, rfl⟩, .inl ⟨rfl, rfl⟩⟩

/-- **C72**, `struct(v)`, `squared(v)`, `product(other, v)`: after any program, each object of these kinds reads and writes as
if it had just been made from the matrix that it refers to, with the elements that this matrix has now; a write changes this
matrix and nothing else. -/
theorem C72_shared_partial [Add V] [Sub V] (os : List (Op V)) (ho : ∀ o ∈ os, o.Ok) (st : Heap V) (hst : st = Heap.run {} os)
    (i : ℕ) (w : HView V) (hw : st.views[i]? = some w) (hk : w.kind.copies = false) :
    ∃ m p, st.cast i = some m ∧ st.mats[w.mat]? = some m ∧ w.kind.make m = .ok p ∧ (∀ q, st.read i q = p.getitem q) ∧
      ∀ q v, st.step (.write i q v) = ((p.setitem q v).1,
        { st with mats := st.mats.set w.mat ⟨.dense m.sp.rows m.sp.cols, (p.setitem q v).2.obj.master⟩ }) := by
  have hg : st.Good := by rw [hst]; exact Heap.Good.empty.run ho
  obtain ⟨m, h1, h2, h3, -⟩ := hg.views w (List.mem_of_getElem? hw)
  refine ⟨m, w.view.withData (w.kind.values m), by rw [Heap.cast, hw]; exact h1, h1, h2.make, ?_, ?_⟩
  · intro q
    simp only [Heap.read, hw, h1, h3 hk]
    rfl
  · intro q v
    simp only [Heap.step, Heap.write, hw, h1, h3 hk]

/-- **C72**, objects of the same kind on the same matrix, `s` and `struct(s.cat)` for instance: a write through one of them is
seen by the other as if it had been made there. -/
theorem C72_alias_partial [Add V] [Sub V] (os : List (Op V)) (ho : ∀ o ∈ os, o.Ok) (st : Heap V) (hst : st = Heap.run {} os)
    (i j : ℕ) (w w' : HView V) (hw : st.views[i]? = some w) (hw' : st.views[j]? = some w') (hk : w.kind.copies = false)
    (hs : w'.kind = w.kind) (hm : w'.mat = w.mat) (q : List (PIdx (PyFn V))) (v : Pay V) (q' : List (PIdx (PyFn V))) :
    (st.step (.write i q v)).2.read j q' = (st.step (.write j q v)).2.read j q' ∧
      (st.step (.write i q v)).1 = (st.step (.write j q v)).1 := by
  obtain ⟨m, p, -, h2, h3, -, h5⟩ := C72_shared_partial os ho st hst i w hw hk
  obtain ⟨m', p', -, h2', h3', -, h5'⟩ := C72_shared_partial os ho st hst j w' hw' (by rw [hs]; exact hk)
  rw [hm, h2] at h2'
  cases h2'
  rw [hs, h3] at h3'
  cases h3'
  rw [h5, h5', hm]
  exact ⟨rfl, rfl⟩

/-- **C72**, objects on different matrices: a write through an object (of any kind) does not change what objects read that refer to
another matrix, nor the other matrices. -/
theorem C72_separate [Add V] [Sub V] (st : Heap V) (i j : ℕ) (w w' : HView V) (hw : st.views[i]? = some w)
    (hw' : st.views[j]? = some w') (hm : w'.mat ≠ w.mat) (q : List (PIdx (PyFn V))) (v : Pay V) :
    (∀ q', (st.step (.write i q v)).2.read j q' = st.read j q') ∧
      ∀ r, r ≠ w.mat → (st.step (.write i q v)).2.mats[r]? = st.mats[r]? := by
  have hij : i ≠ j := by
    rintro rfl
    rw [hw] at hw'
    cases hw'
    exact hm rfl
  simp only [Heap.step, Heap.write, hw]
  cases h1 : st.mats[w.mat]? with
  | none => exact ⟨fun _ => rfl, fun _ _ => rfl⟩
  | some m =>
    simp only
    cases w.own with
    | none =>
      refine ⟨fun q' => ?_, fun r hr => List.getElem?_set_ne (Ne.symm hr)⟩
      simp only [Heap.read, hw', List.getElem?_set_ne (Ne.symm hm)]
    | some own =>
      refine ⟨fun q' => ?_, fun r hr => List.getElem?_set_ne (Ne.symm hr)⟩
      simp only [Heap.read, List.getElem?_set_ne hij, hw', List.getElem?_set_ne (Ne.symm hm)]

/-! ## `repeated` and `squared_repeated` -/

/-- The copy of object `i` agrees with the matrix. -/
def Heap.Coherent (st : Heap V) (i : ℕ) : Prop :=
  ∃ w m, st.views[i]? = some w ∧ st.mats[w.mat]? = some m ∧ w.kind.copies = true ∧ w.own = some m.data

/-- No operation changes the matrix of object `i` except through `i`. -/
def Heap.Alone (st : Heap V) (i : ℕ) : List (Op V) → Prop
  | [] => True
  | o :: os => ((∃ q v, o = .write i q v) ∨ ∀ w, st.views[i]? = some w →
      (st.step o).2.mats[w.mat]? = st.mats[w.mat]?) ∧ (st.step o).2.Alone i os

/-- An operation other than a write through `i` leaves object `i` as it is. -/
theorem Heap.step_view (st : Heap V) {i : ℕ} {w : HView V} (hw : st.views[i]? = some w) {o : Op V}
    (ho : ∀ q v, o ≠ .write i q v) : (st.step o).2.views[i]? = some w := by
  have hlt := (List.getElem?_eq_some_iff.1 hw).1
  cases o with
  | alloc m => exact hw
  | new k r =>
    simp only [Heap.step, Heap.new]
    cases st.mats[r]? with
    | none => exact hw
    | some m =>
      simp only
      cases k.make m with
      | error e => exact hw
      | ok p =>
        simp only
        split
        · simp only [List.getElem?_append_left hlt]; exact hw
        · simp only [List.getElem?_append_left hlt]; exact hw
  | write j q v =>
    have hij : j ≠ i := by
      rintro rfl
      exact ho q v rfl
    simp only [Heap.step, Heap.write]
    cases st.views[j]? with
    | none => exact hw
    | some x =>
      simp only
      cases st.mats[x.mat]? with
      | none => exact hw
      | some m =>
        simp only
        cases x.own with
        | none => exact hw
        | some own => simp only [List.getElem?_set_ne hij]; exact hw
  | poke r k x =>
    simp only [Heap.step]
    cases st.mats[r]? <;> exact hw
  | copy r =>
    simp only [Heap.step]
    cases st.mats[r]? <;> exact hw

theorem Heap.Good.write_copy {st : Heap V} (hg : st.Good) {i : ℕ} {w : HView V} {m : SMat V} {own : List V}
    (hw : st.views[i]? = some w) (hm : st.mats[w.mat]? = some m) (hk : w.kind.copies = true) (ho : w.own = some own)
    (q : List (PIdx (PyFn V))) (v : Pay V) :
    ∃ a', st.step (.write i q v) = (((w.view.withData own).setitem q v).1,
        ⟨st.mats.set w.mat ⟨m.sp, a'⟩, st.views.set i { w with own := some ((w.view.withData own).setitem q v).2.obj.master }⟩) ∧
      (a' = ((w.view.withData own).setitem q v).2.obj.master ∨
        (a' = m.data ∧ ((w.view.withData own).setitem q v).2.obj.master = own)) := by
  obtain ⟨m', h1, h2, -⟩ := hg.views w (List.mem_of_getElem? hw)
  rw [hm] at h1
  cases h1
  obtain ⟨v', a', h3, h4, h5⟩ := copy_write w.view.obj.cs (w.view.pre ++ q) v own m.data
  have hset : (w.view.withData own).setitem q v = ((setitemOn assign w.view.obj.cs (w.view.pre ++ q) v own).1,
      w.view.withData v') := by
    rw [Prefixer.setitem, Obj.setitem_on, h4]
    rfl
  refine ⟨a', ?_, ?_⟩
  · simp only [Heap.step, Heap.write, hw, hm, ho]
    rw [h3, hset]
    rfl
  · rw [hset]
    exact h5

theorem Heap.Good.coherent_step {st : Heap V} (hg : st.Good) {i : ℕ} (hc : st.Coherent i) (o : Op V)
    (ho : (∃ q v, o = .write i q v) ∨ ∀ w, st.views[i]? = some w → (st.step o).2.mats[w.mat]? = st.mats[w.mat]?) :
    (st.step o).2.Coherent i := by
  obtain ⟨w, m, h1, h2, h3, h4⟩ := hc
  by_cases hi : ∃ q v, o = .write i q v
  · obtain ⟨q, v, rfl⟩ := hi
    obtain ⟨a', h5, h6⟩ := hg.write_copy h1 h2 h3 h4 q v
    have e : a' = ((w.view.withData m.data).setitem q v).2.obj.master := by
      rcases h6 with h6 | ⟨h6, h7⟩
      · exact h6
      · rw [h6, h7]
    rw [h5]
    refine ⟨_, ⟨m.sp, a'⟩, List.getElem?_set_self (List.getElem?_eq_some_iff.1 h1).1, ?_, h3, ?_⟩
    · exact List.getElem?_set_self (List.getElem?_eq_some_iff.1 h2).1
    · rw [e]
  · have ho := ho.resolve_left hi
    exact ⟨w, m, st.step_view h1 fun q v h => hi ⟨q, v, h⟩, by rw [ho w h1]; exact h2, h3, h4⟩

/-- **C72**, `repeated(v)` and `squared_repeated(v)`: as long as the matrix is not changed in another way than by writes through the
object, the object reads and writes as if it had just been made from the matrix with the elements that it has now.
The full claim (without `Alone`) is false: `C72_refuted_stale`, `C72_refuted_lost`. -/
theorem C72_copy_partial [Add V] [Sub V] (os : List (Op V)) (ho : ∀ o ∈ os, o.Ok) (st : Heap V) (hst : st = Heap.run {} os)
    (k : Kind) (hk : k.copies = true) (r : ℕ) (hn : (st.step (.new k r)).1 = .ok ()) (i : ℕ) (hi : i = st.views.length)
    (os' : List (Op V)) (ho' : ∀ o ∈ os', o.Ok) (ha : (st.step (.new k r)).2.Alone i os') (st' : Heap V)
    (hst' : st' = (st.step (.new k r)).2.run os') :
    ∃ m p, st'.cast i = some m ∧ st'.mats[r]? = some m ∧ k.make m = .ok p ∧ (∀ q, st'.read i q = p.getitem q) ∧
      ∀ q v, ∃ views', st'.step (.write i q v) = ((p.setitem q v).1,
        ⟨st'.mats.set r ⟨m.sp, (p.setitem q v).2.obj.master⟩, views'⟩) := by
  have hg : st.Good := by rw [hst]; exact Heap.Good.empty.run ho
  have hg1 : (st.step (.new k r)).2.Good := hg.step trivial
  have hc1 : (st.step (.new k r)).2.Coherent i ∧
      ∀ w, (st.step (.new k r)).2.views[i]? = some w → w.kind = k ∧ w.mat = r := by
    have hx : ∀ m : SMat V, k.expands m = false := by
      intro m
      cases k with
      | repeated c => rfl
      | squaredRepeated c => rfl
      | _ => cases hk
    revert hn
    simp only [Heap.step, Heap.new]
    cases hm : st.mats[r]? with
    | none => intro h; cases h
    | some m =>
      simp only
      cases hp : k.make m with
      | error e => intro h; cases h
      | ok p =>
        intro _
        simp only [hk, if_true]
        rw [if_neg (by simp [hx m]), hi]
        refine ⟨⟨⟨k, r, p, some m.data⟩, m, by simp, hm, hk, rfl⟩, ?_⟩
        intro w hw
        simp at hw
        subst hw
        exact ⟨rfl, rfl⟩
  have key : ∀ (os' : List (Op V)) (s : Heap V), (∀ o ∈ os', o.Ok) → s.Good → s.Coherent i →
      (∀ w, s.views[i]? = some w → w.kind = k ∧ w.mat = r) → s.Alone i os' →
      (s.run os').Good ∧ (s.run os').Coherent i ∧ ∀ w, (s.run os').views[i]? = some w → w.kind = k ∧ w.mat = r := by
    intro os'
    induction os' with
    | nil => exact fun s _ h1 h2 h3 _ => ⟨h1, h2, h3⟩
    | cons o os' ih =>
      intro s hok h1 h2 h3 h4
      rw [Heap.run]
      refine ih _ (fun o' h' => hok o' (List.mem_cons_of_mem _ h')) (h1.step (hok o List.mem_cons_self))
        (h1.coherent_step h2 o h4.1) ?_ h4.2
      obtain ⟨w, m, g1, g2, g3, g4⟩ := h2
      intro w' hw'
      by_cases hw : ∃ q v, o = .write i q v
      · obtain ⟨q, v, rfl⟩ := hw
        obtain ⟨a', h5, -⟩ := h1.write_copy g1 g2 g3 g4 q v
        rw [h5] at hw'
        simp only [List.getElem?_set_self (List.getElem?_eq_some_iff.1 g1).1] at hw'
        cases hw'
        exact h3 w g1
      · rw [s.step_view g1 fun q v h => hw ⟨q, v, h⟩] at hw'
        cases hw'
        exact h3 w g1
  obtain ⟨hg', ⟨w, m, h1, h2, h3, h4⟩, hr⟩ := key os' _ ho' hg1 hc1.1 hc1.2 ha
  rw [← hst'] at hg' h1 h2 hr
  obtain ⟨rfl, hwr⟩ := hr w h1
  obtain ⟨m', g1, g2, -⟩ := hg'.views w (List.mem_of_getElem? h1)
  rw [h2] at g1
  cases g1
  have hv : w.kind.values m = m.data := by
    cases hkk : w.kind with
    | call c => rw [hkk] at hk; cases hk
    | _ => rfl
  refine ⟨m, w.view.withData m.data, by rw [Heap.cast, h1]; exact h2, by rw [← hwr]; exact h2, by rw [← hv]; exact g2.make, ?_, ?_⟩
  · intro q
    simp only [Heap.read, h1, h2, h4]
    rfl
  · intro q v
    obtain ⟨a', h5, h6⟩ := hg'.write_copy h1 h2 h3 h4 q v
    have e : a' = ((w.view.withData m.data).setitem q v).2.obj.master := by
      rcases h6 with h6 | ⟨h6, h7⟩
      · exact h6
      · rw [h6, h7]
    rw [e, hwr] at h5
    exact ⟨_, h5⟩

/-- **C72 fails for `repeated` and `squared_repeated`** (reads): nothing but writes through the object itself changes what it reads,
neither assignments to the matrix nor writes through other objects on the matrix. -/
theorem C72_refuted_stale [Add V] [Sub V] (os : List (Op V)) (ho : ∀ o ∈ os, o.Ok) (st : Heap V) (hst : st = Heap.run {} os)
    (i : ℕ) (w : HView V) (hw : st.views[i]? = some w) (hk : w.kind.copies = true) (o : Op V) (hok : o.Ok)
    (hi : ∀ q v, o ≠ .write i q v) (q : List (PIdx (PyFn V))) : (st.step o).2.read i q = st.read i q := by
  have hg : st.Good := by rw [hst]; exact Heap.Good.empty.run ho
  obtain ⟨m, h1, -, -, h2⟩ := hg.views w (List.mem_of_getElem? hw)
  obtain ⟨own, h3, -⟩ := h2 hk
  have hw' := st.step_view hw hi
  obtain ⟨m', h1', -⟩ := (hg.step hok).views w (List.mem_of_getElem? hw')
  simp only [Heap.read, hw, hw', h1, h1', h3]
  rfl

/-- **C72 fails for `repeated`** (writes): two views of the columns of the same matrix; a write to column `j` through the first
one, then a write to another column `j'` through the second one: unless the second write assigns nothing at all, column `j` is
again as it was at first. -/
theorem C72_refuted_lost [Add V] [Sub V] (s : Struct) (hwf : WFs s.entries s.order) :
    ∃ c, CS.ofStruct s = .ok c ∧ ∀ (st : Heap V), st.Good → ∀ (r : ℕ) (a : SMat V), st.mats[r]? = some a →
      a.sp = .dense c.size a.sp.cols → ∀ j j', j < a.sp.cols → j' < a.sp.cols → j ≠ j' →
      ∀ q q' : List (PIdx (PyFn V)), (∃ p ∈ q, ∀ f, p ≠ .fn f) → (∀ f, .fn f ∈ q → f.Rearranges) →
      (∃ p ∈ q', ∀ f, p ≠ .fn f) → (∀ f, .fn f ∈ q' → f.Rearranges) → ∀ v v',
      ∃ a1 a2 col1 col2,
        (st.run [.new (.repeated c) r, .new (.repeated c) r, .write st.views.length (.int j :: q) v]).mats[r]? = some a1 ∧
        (st.run [.new (.repeated c) r, .new (.repeated c) r, .write st.views.length (.int j :: q) v,
          .write (st.views.length + 1) (.int j' :: q') v']).mats[r]? = some a2 ∧
        ((⟨c, (List.range c.size).map fun i => a.at' (i, j), []⟩ : Obj V).setitem q v).2 = ⟨c, col1, []⟩ ∧
        ((⟨c, (List.range c.size).map fun i => a.at' (i, j'), []⟩ : Obj V).setitem q' v').2 = ⟨c, col2, []⟩ ∧
        ((List.range c.size).map fun i => a1.at' (i, j)) = col1 ∧
        ((a2 = a1 ∧ col2 = (List.range c.size).map fun i => a.at' (i, j')) ∨
          (((List.range c.size).map fun i => a2.at' (i, j')) = col2 ∧
            ∀ i < c.size, ∀ k < a.sp.cols, k ≠ j' → a2.at' (i, k) = a.at' (i, k))) := by
  obtain ⟨c, h0, hall⟩ := C50_repeated_partial (V := V) s hwf
  refine ⟨c, h0, ?_⟩
  intro st hg r a hm has j j' hj hj' hjj q q' hq1 hq2 hq1' hq2' v v'
  have haw := hg.mats a (List.mem_of_getElem? hm)
  obtain ⟨p, hp, hcast, hacc⟩ := hall a haw has
  have hmk : Kind.make (.repeated c) a = .ok p := hp
  obtain ⟨-, hpd⟩ := Ready.of_make (k := .repeated c) haw rfl hmk
  have hpd : p.withData a.data = p := hpd
  let n := st.views.length
  let w : HView V := ⟨.repeated c, r, p, some a.data⟩
  have e1 : ∀ st' : Heap V, st'.mats = st.mats → st'.step (.new (.repeated c) r) = (.ok (), ⟨st'.mats, st'.views ++ [w]⟩) := by
    intro st' h'
    simp only [Heap.step, Heap.new, h', hm, hmk]
    rfl
  let s2 : Heap V := ⟨st.mats, st.views ++ [w] ++ [w]⟩
  have hg2 : s2.Good := by
    have := (hg.step (o := .new (.repeated c) r) trivial).step (o := .new (.repeated c) r) trivial
    rw [e1 st rfl, e1 ⟨st.mats, st.views ++ [w]⟩ rfl] at this
    exact this
  have hA : s2.views[n]? = some w := by simp [s2, n]
  have hB : s2.views[n + 1]? = some w := by simp [s2, n]
  obtain ⟨r1, col1, a1, p1, hs1, hs2, hw1, hsp1, hp1, hc1, hcol1, hoth1⟩ := (hacc j hj q hq1 hq2).2 v
  obtain ⟨r2, col2, a2, p2, hs3, hs4, hw2, hsp2, hp2, hc2, hcol2, hoth2⟩ := (hacc j' hj' q' hq1' hq2').2 v'
  have hlt := (List.getElem?_eq_some_iff.1 hm).1
  -- the data of the views
  have hd : ∀ (x : SMat V) (px : Prefixer V), x.WF → x.sp = a.sp → c.repeated x = .ok px → px.obj.master = x.data ∧ x = ⟨a.sp, x.data⟩ := by
    intro x px hx hxs hxp
    refine ⟨?_, by rw [← hxs]⟩
    obtain ⟨-, h⟩ := Ready.of_make (k := .repeated c) hx rfl hxp
    rw [← h]
    rfl
  obtain ⟨hd1, hx1⟩ := hd a1 p1 hw1 hsp1 hp1
  obtain ⟨hd2, hx2⟩ := hd a2 p2 hw2 hsp2 hp2
  obtain ⟨x1, g1, g2⟩ := hg2.write_copy hA (m := a) hm rfl rfl (.int j :: q) v
  have hwd : w.view.withData a.data = p := hpd
  rw [hwd, hs2] at g1 g2
  simp only [hd1] at g1 g2
  have hx : x1 = a1.data := by
    rcases g2 with g2 | ⟨g2, g3⟩
    · exact g2
    · rw [g2, g3]
  rw [hx, ← hx1] at g1
  have hr1 : st.run [.new (.repeated c) r, .new (.repeated c) r, .write st.views.length (.int j :: q) v] =
      ⟨st.mats.set r a1, s2.views.set n { w with own := some a1.data }⟩ := by
    rw [Heap.run, e1 st rfl, Heap.run, e1 ⟨st.mats, st.views ++ [w]⟩ rfl, Heap.run, Heap.run]
    exact congrArg Prod.snd g1
  let s3 : Heap V := ⟨st.mats.set r a1, s2.views.set n { w with own := some a1.data }⟩
  have hg3 : s3.Good := by
    have := hg2.step (o := .write n (.int j :: q) v) trivial
    rw [g1] at this
    exact this
  have hB3 : s3.views[n + 1]? = some w := by
    simp only [s3]
    rw [List.getElem?_set_ne (by omega)]
    exact hB
  have hm3 : s3.mats[w.mat]? = some a1 := List.getElem?_set_self hlt
  obtain ⟨x2, g3, g4⟩ := hg3.write_copy hB3 (m := a1) hm3 rfl rfl (.int j' :: q') v'
  rw [hwd, hs4] at g3 g4
  simp only [hd2] at g3 g4
  have hr2 : (st.run [.new (.repeated c) r, .new (.repeated c) r, .write st.views.length (.int j :: q) v,
      .write (st.views.length + 1) (.int j' :: q') v']).mats[r]? = some ⟨a1.sp, x2⟩ := by
    have : st.run [.new (.repeated c) r, .new (.repeated c) r, .write st.views.length (.int j :: q) v,
      .write (st.views.length + 1) (.int j' :: q') v'] = (s3.step (.write (n + 1) (.int j' :: q') v')).2 := by
      rw [Heap.run, e1 st rfl, Heap.run, e1 ⟨st.mats, st.views ++ [w]⟩ rfl, Heap.run]
      show ((s2.step (.write n (.int j :: q) v)).2).run _ = _
      rw [g1]
      rfl
    rw [this, g3]
    show (s3.mats.set r ⟨a1.sp, x2⟩)[r]? = _
    exact List.getElem?_set_self (by simp [s3]; exact hlt)
  refine ⟨a1, ⟨a1.sp, x2⟩, col1, col2, ?_, hr2, by rw [hs1], by rw [hs3], hcol1, ?_⟩
  · rw [hr1]
    exact List.getElem?_set_self hlt
  · rcases g4 with g4 | ⟨g4, g5⟩
    · refine .inr ?_
      have e : (⟨a1.sp, x2⟩ : SMat V) = a2 := by rw [hx2, hsp1, g4]
      rw [e]
      exact ⟨hcol2, hoth2⟩
    · refine .inl ⟨by rw [g4], ?_⟩
      have e : a2 = a := by rw [hx2, g5]
      rw [← hcol2, e]

/-! ## Examples: a struct with one scalar element `P` -/

theorem one_struct : ∃ c, CS.ofStruct (oneStruct ⟨.dense 1 1, false, none, none⟩) = .ok c ∧ c.size = 1 ∧ ∀ x y : ℤ,
    (⟨c, [x], []⟩ : Obj ℤ).getitem [.str "P"] = .ok (.leaf (.scalar x)) ∧
    (⟨c, [x], []⟩ : Obj ℤ).setitem [.str "P"] (.num y) = (.ok (), ⟨c, [y], []⟩) := by
  have hc : (Sparsity.dense 1 1).Canon := Sparsity.dense_canon _ _
  obtain ⟨c, h1, h2, hb⟩ := oneStruct_built (p := ⟨.dense 1 1, false, none, none⟩) hc
  have hwc : WFs c.struct.entries c.struct.order := by rw [h2]; exact oneStruct_wf hc
  have hl : IsLeaf c.struct.entries [.str "P"] ⟨.dense 1 1, false, none, none⟩ := by rw [h2]; exact oneStruct_leaf _
  have hget : dictGet c.map [.str "P"] = some ⟨.dense 1 1, [0]⟩ := hb.leaf_pos hwc hl (A := []) (B := []) (by rw [h2]; rfl)
  have hsz : c.size = 1 := by rw [hb.size]; rfl
  refine ⟨c, h1, hsz, fun x y => ⟨?_, ?_⟩⟩
  · obtain ⟨i, e1, -, -, -, -, e2⟩ := getitem_plain hb hwc (master := [x]) (by rw [hsz]; rfl) (.leaf hl)
      (by intro p hp; cases hp; rfl)
    rw [hget] at e1
    cases e1
    exact e2
  · have := Obj.setitem_part (⟨c, [x], []⟩ : Obj ℤ) hwc (.leaf hl) [] (fun _ => rfl) (.num y)
    rw [List.append_nil] at this
    show (⟨c, [x], []⟩ : Obj ℤ).setitem ([Key.str "P"].map .ofKey) _ = _
    rw [this]
    simp only [setCall, Pay.toMat, hget, Option.getD_some, performExtraIndex]
    rfl

/-- `v = DM(1); s = struct(v); t = struct(s.cat); s["P"] = 5`: `t["P"]` is 5 and `v` is 5. -/
example : ∃ c, CS.ofStruct (oneStruct ⟨.dense 1 1, false, none, none⟩) = .ok c ∧
    let st := Heap.run {} [.alloc (.scalar (1 : ℤ)), .new (.call c) 0, .new (.call c) 0]
    st.read 1 [.str "P"] = .ok (.leaf (.scalar 1)) ∧ (st.step (.write 0 [.str "P"] (.num 5))).2.read 1 [.str "P"] = .ok (.leaf (.scalar 5)) ∧
      (st.step (.write 0 [.str "P"] (.num 5))).2.mats = [.scalar 5] := by
  obtain ⟨c, h1, hsz, hrw⟩ := one_struct
  refine ⟨c, h1, ?_⟩
  intro st
  have hcall : callDM 0 c (.mat (.scalar (1 : ℤ))) = .ok ⟨c, [1], []⟩ := by
    have := (C48_column (0 : ℤ) c [1] (by rw [hsz]; rfl)).1
    rw [hsz] at this
    exact this
  have hmk : Kind.make (.call c) (.scalar (1 : ℤ)) = .ok { obj := ⟨c, [1], []⟩, pre := [], castmaster := true } := by
    rw [Kind.make, hcall]
    rfl
  have hx : Kind.expands (.call c) (.scalar (1 : ℤ)) = false := by simp [Kind.expands, hsz]
  let w : HView ℤ := ⟨.call c, 0, { obj := ⟨c, [1], []⟩, pre := [], castmaster := true }, none⟩
  have hst : st = ⟨[.scalar 1], [w, w]⟩ := by
    have e : ∀ vs : List (HView ℤ), (⟨[.scalar 1], vs⟩ : Heap ℤ).step (.new (.call c) 0) = (.ok (), ⟨[.scalar 1], vs ++ [w]⟩) := by
      intro vs
      simp only [Heap.step, Heap.new, List.getElem?_cons_zero, hmk, hx]
      rfl
    show ((((⟨[.scalar 1], []⟩ : Heap ℤ).step (.new (.call c) 0)).2).step (.new (.call c) 0)).2 = _
    rw [e, e]
    rfl
  have hw : ∀ i < 2, st.views[i]? = some w := by
    intro i hi
    rw [hst]
    match i, hi with
    | 0, _ => rfl
    | 1, _ => rfl
  obtain ⟨m, p, -, h2, h3, h4, h5⟩ := C72_shared_partial (V := ℤ) _
    (by simp [Op.Ok]; exact ⟨Sparsity.dense_canon _ _, rfl⟩) st rfl 0 w (hw 0 (by omega)) rfl
  rw [hst] at h2
  cases h2
  rw [hmk] at h3
  cases h3
  have hset : (Prefixer.setitem { obj := ⟨c, [(1 : ℤ)], []⟩, pre := [], castmaster := true } [.str "P"] (.num 5)) =
      (.ok (), { obj := ⟨c, [5], []⟩, pre := [], castmaster := true }) := by
    rw [Prefixer.setitem]
    simp only [List.nil_append, (hrw 1 5).2]
  have h6 := h5 [.str "P"] (.num 5)
  rw [hset] at h6
  refine ⟨?_, ?_, ?_⟩
  · rw [hst]
    exact (hrw 1 5).1
  · rw [h6, hst]
    exact (hrw 5 5).1
  · rw [h6, hst]
    rfl

/-- `M = DM([[1, 2]])`, two objects `A = struct.repeated(M)` and `B = struct.repeated(M)`: after `A[0, "P"] = 5` the matrix is
`[5, 2]`, and after `B[1, "P"] = 7` it is `[1, 7]`. -/
example : ∃ c, CS.ofStruct (oneStruct ⟨.dense 1 1, false, none, none⟩) = .ok c ∧ ∃ a1 a2 : SMat ℤ,
    (Heap.run (V := ℤ) {} [.alloc ⟨.dense 1 2, [1, 2]⟩, .new (.repeated c) 0, .new (.repeated c) 0,
      .write 0 [.int 0, .str "P"] (.num 5)]).mats[0]? = some a1 ∧
    (Heap.run (V := ℤ) {} [.alloc ⟨.dense 1 2, [1, 2]⟩, .new (.repeated c) 0, .new (.repeated c) 0,
      .write 0 [.int 0, .str "P"] (.num 5), .write 1 [.int 1, .str "P"] (.num 7)]).mats[0]? = some a2 ∧
    a1.at' (0, 0) = 5 ∧ a2.at' (0, 0) = 1 ∧ a2.at' (0, 1) = 7 := by
  obtain ⟨c, h1, hsz, hrw⟩ := one_struct
  obtain ⟨c', h1', hl⟩ := C72_refuted_lost (V := ℤ) (oneStruct ⟨.dense 1 1, false, none, none⟩)
    (oneStruct_wf (Sparsity.dense_canon _ _))
  rw [h1] at h1'
  cases h1'
  have hg : (⟨[⟨.dense 1 2, [1, 2]⟩], []⟩ : Heap ℤ).Good :=
    ⟨by intro m hm; rw [List.mem_singleton.1 hm]; exact ⟨Sparsity.dense_canon _ _, rfl⟩, by simp⟩
  obtain ⟨a1, a2, col1, col2, g1, g2, g3, g4, g5, g6⟩ := hl ⟨[⟨.dense 1 2, [1, 2]⟩], []⟩ hg 0 ⟨.dense 1 2, [1, 2]⟩ rfl
    (by rw [hsz]; rfl) 0 1 (by decide) (by decide) (by decide) [.str "P"] [.str "P"] ⟨_, List.mem_singleton_self _, by intro f h; cases h⟩
    (by intro f h; simp at h) ⟨_, List.mem_singleton_self _, by intro f h; cases h⟩ (by intro f h; simp at h) (.num 5) (.num 7)
  rw [hsz] at g3 g4 g5 g6
  have e1 : ((List.range 1).map fun i => (⟨.dense 1 2, [1, 2]⟩ : SMat ℤ).at' (i, 0)) = [1] := by decide
  have e2 : ((List.range 1).map fun i => (⟨.dense 1 2, [1, 2]⟩ : SMat ℤ).at' (i, 1)) = [2] := by decide
  rw [e1, (hrw 1 5).2] at g3
  rw [e2, (hrw 2 7).2] at g4
  have g3 : [5] = col1 := congrArg Obj.master g3
  have g4 : [7] = col2 := congrArg Obj.master g4
  subst g3 g4
  refine ⟨c, h1, a1, a2, g1, g2, ?_, ?_⟩
  · simpa using g5
  · rcases g6 with ⟨-, g6⟩ | ⟨g6, g7⟩
    · rw [e2] at g6
      simp at g6
    · refine ⟨?_, by simpa using g6⟩
      rw [g7 0 (by decide) 0 (by decide) (by decide)]
      decide

/-- One object `A = struct.repeated(M)` alone: `A[0, "P"] = 5`, while another matrix is changed; the matrix and the object agree. -/
example : ∃ c, CS.ofStruct (oneStruct ⟨.dense 1 1, false, none, none⟩) = .ok c ∧ ∃ (m : SMat ℤ) (p : Prefixer ℤ),
    let st := Heap.run (V := ℤ) {} [.alloc ⟨.dense 1 2, [1, 2]⟩, .alloc (.scalar 3), .new (.repeated c) 0, .poke 1 0 4,
      .write 0 [.int 0, .str "P"] (.num 5), .poke 1 0 6]
    st.mats[0]? = some m ∧ c.repeated m = .ok p ∧ ∀ q, st.read 0 q = p.getitem q := by
  obtain ⟨c, h1, hsz, hrw⟩ := one_struct
  obtain ⟨c', h1', hl⟩ := C50_repeated_partial (V := ℤ) (oneStruct ⟨.dense 1 1, false, none, none⟩)
    (oneStruct_wf (Sparsity.dense_canon _ _))
  rw [h1] at h1'
  cases h1'
  obtain ⟨view, hv, -⟩ := hl ⟨.dense 1 2, [1, 2]⟩ ⟨Sparsity.dense_canon _ _, rfl⟩ (by rw [hsz]; rfl)
  have hmk : Kind.make (.repeated c) ⟨.dense 1 2, [(1 : ℤ), 2]⟩ = .ok view := hv
  have hnew : (⟨[⟨.dense 1 2, [1, 2]⟩, .scalar 3], []⟩ : Heap ℤ).step (.new (.repeated c) 0) =
      (.ok (), ⟨[⟨.dense 1 2, [1, 2]⟩, .scalar 3], [⟨.repeated c, 0, view, some [1, 2]⟩]⟩) := by
    simp only [Heap.step, Heap.new, List.getElem?_cons_zero, hmk]
    rfl
  obtain ⟨m, p, -, h2, h3, h4, -⟩ := C72_copy_partial (V := ℤ) [.alloc ⟨.dense 1 2, [1, 2]⟩, .alloc (.scalar 3)]
    (by
      intro o ho
      rcases List.mem_cons.1 ho with rfl | ho
      · exact ⟨Sparsity.dense_canon _ _, rfl⟩
      · rw [List.mem_singleton.1 ho]; exact ⟨Sparsity.dense_canon _ _, rfl⟩)
    _ rfl (.repeated c) rfl 0 (congrArg Prod.fst hnew) 0 rfl
    [.poke 1 0 4, .write 0 [.int 0, .str "P"] (.num 5), .poke 1 0 6]
    (by intro o ho; simp at ho; rcases ho with rfl | rfl | rfl <;> trivial)
    (by
      show Heap.Alone (((⟨[⟨.dense 1 2, [1, 2]⟩, .scalar 3], []⟩ : Heap ℤ).step (.new (.repeated c) 0)).2) 0 _
      rw [hnew]
      refine ⟨.inr ?_, .inl ⟨_, _, rfl⟩, .inr ?_, trivial⟩
      · intro w hw
        cases hw
        rfl
      · intro w hw
        cases hw
        rfl) _ rfl
  exact ⟨c, h1, m, p, h2, h3, h4⟩

/-- C72: two matrices and an object on each; whatever is assigned to the first object, the second one and its matrix stay; and
creating a third object on a matrix of two elements adds no matrix. -/
example (c2 : CS) (st : Heap ℤ) (p : Prefixer ℤ) (hst : st.mats = [.scalar 1, ⟨.dense 2 1, [2, 3]⟩]) (w w' : HView ℤ)
    (h0 : st.views[0]? = some w) (h1 : st.views[1]? = some w') (hw : w.mat = 0) (hw' : w'.mat = 1)
    (hp : (Kind.call c2).make (⟨.dense 2 1, [2, 3]⟩ : SMat ℤ) = .ok p) (q : List (PIdx (PyFn ℤ))) (v : Pay ℤ) :
    (∀ q', (st.step (.write 0 q v)).2.read 1 q' = st.read 1 q') ∧
      (st.step (.write 0 q v)).2.mats[1]? = some ⟨.dense 2 1, [2, 3]⟩ ∧
      ∃ w'', st.step (.new (.call c2) 1) = (.ok (), ⟨st.mats, st.views ++ [w'']⟩) ∧ w''.mat = 1 := by
  obtain ⟨g1, g2⟩ := C72_separate st 0 1 w w' h0 h1 (by rw [hw, hw']; decide) q v
  refine ⟨g1, ?_, ?_⟩
  · rw [g2 1 (by rw [hw]; decide), hst]; rfl
  · obtain ⟨w'', extra, k1, -, k2, -⟩ := C72_new st (.call c2) 1 ⟨.dense 2 1, [2, 3]⟩ p (by rw [hst]; rfl) hp
    obtain ⟨k3, k4⟩ := k2 (.inl (by simp [Sparsity.dense]))
    rw [k4, List.append_nil] at k1
    exact ⟨w'', k1, k3⟩

end CE.St
