import Verif.Struct.LemTop

/-! # Writing and reading all repetitions of an entry -/

namespace CE.St

variable {V : Type}

/-- The payload for repetition `i`: the `i`-th element of a list; `repeated(e)` stands for copies of `e`; anything else is used
for every repetition. -/
def Pay.sub (pay : Pay V) (i : ℕ) : Option (Pay V) :=
  match pay with
  | .list l => l[i]?
  | .rep e => some e
  | p => some p

/-- The payload for a tuple of repeat indices. -/
def Pay.at : Pay V → List ℕ → Option (Pay V)
  | p, [] => some p
  | p, i :: is => (p.sub i).bind fun q => q.at is

/-- The nested lists in the payload are long enough for the repeat counts. -/
def Pay.Covers : Pay V → List ℕ → Prop
  | _, [] => True
  | p, d :: ds => ∀ i < d, ∃ q, p.sub i = some q ∧ q.Covers ds

/-- All tuples of repeat indices, row-major. -/
def tuples : List ℕ → List (List ℕ)
  | [] => [[]]
  | d :: ds => (List.range d).flatMap fun i => (tuples ds).map fun is => i :: is

theorem mem_tuples {ds is : List ℕ} : is ∈ tuples ds ↔ List.Forall₂ (· < ·) is ds := by
  induction ds generalizing is with
  | nil => simp [tuples]
  | cons d ds ih =>
    simp only [tuples, List.mem_flatMap, List.mem_range, List.mem_map]
    constructor
    · rintro ⟨i, hi, js, hj, rfl⟩
      exact .cons hi (ih.1 hj)
    · intro h
      cases h with
      | cons h1 h2 => exact ⟨_, h1, _, ih.2 h2, rfl⟩

theorem listindices_tuples (ds : List ℕ) : listindices ds = (tuples ds).map natKeys := by
  induction ds with
  | nil => rfl
  | cons d ds ih =>
    simp only [listindices, combine, tuples, lpack, rangeKeys, ih, flatMap_map', List.map_map, List.map_flatMap]
    apply List.flatMap_congr
    intro i _
    simp [natKeys, flatMap_single, Function.comp_def]

theorem Pay.covers_at {pay : Pay V} {ds : List ℕ} (h : pay.Covers ds) {is : List ℕ} (hi : List.Forall₂ (· < ·) is ds) :
    ∃ q, pay.at is = some q := by
  induction ds generalizing pay is with
  | nil => cases hi; exact ⟨_, rfl⟩
  | cons d ds ih =>
    cases hi with
    | cons h1 h2 =>
      obtain ⟨q, hq, hc⟩ := h _ h1
      obtain ⟨r, hr⟩ := ih hc h2
      exact ⟨r, by rw [Pay.at, hq]; exact hr⟩

theorem payloadUnpack_sub {pay q : Pay V} {i : ℕ} (h : pay.sub i = some q) : payloadUnpack pay (.int i) = .ok q := by
  unfold Pay.sub at h
  unfold payloadUnpack
  cases pay with
  | list l =>
    simp only at h ⊢
    have hl : i < l.length := (List.getElem?_eq_some_iff.1 h).1
    rw [if_neg (by omega)]
    unfold pyIndex
    simp only [Int.natCast_nonneg, ge_iff_le, not_lt.2 (Int.natCast_nonneg i), if_false, if_true, Int.toNat_natCast, h]
  | rep e => simp only at h ⊢; rw [Option.some.inj h]
  | none => simp only at h ⊢; rw [Option.some.inj h]
  | num v => simp only at h ⊢; rw [Option.some.inj h]
  | mat m => simp only at h ⊢; rw [Option.some.inj h]
  | dict l => simp only at h ⊢; rw [Option.some.inj h]

section
variable [Zero V]

theorem Obj.setAll_append (o : Obj V) (l l' : List (List (PIdx (PyFn V)) × Pay V)) :
    o.setAll (l ++ l') = match o.setAll l with
      | (.ok _, o') => o'.setAll l'
      | (.error e, o') => (.error e, o') := by
  induction l generalizing o with
  | nil => rfl
  | cons x l ih =>
    obtain ⟨pi, v⟩ := x
    rw [List.cons_append, Obj.setAll, Obj.setAll]
    rcases o.setitem pi v with ⟨_ | _, o'⟩
    · rfl
    · exact ih o'

theorem Obj.setitem_cs (o : Obj V) (pi : List (PIdx (PyFn V))) (v : Pay V) : (o.setitem pi v).2.cs = o.cs ∧
    (o.setitem pi v).2.prio = o.prio := by
  unfold Obj.setitem
  split <;> exact ⟨rfl, rfl⟩

theorem Obj.setAll_single (o : Obj V) (pi : List (PIdx (PyFn V))) (v : Pay V) : o.setAll [(pi, v)] = o.setitem pi v := by
  rw [Obj.setAll]
  rcases h : o.setitem pi v with ⟨_ | u, o'⟩
  · rfl
  · rfl

/-- If every assignment of a list amounts to several assignments, so does the list. -/
theorem Obj.setAll_flatMap {α : Type} (l : List α) (x : α → List (PIdx (PyFn V)) × Pay V)
    (f : α → List (List (PIdx (PyFn V)) × Pay V)) (cs : CS)
    (h : ∀ a ∈ l, ∀ o : Obj V, o.cs = cs → o.setitem (x a).1 (x a).2 = o.setAll (f a)) (o : Obj V) (ho : o.cs = cs) :
    o.setAll (l.map x) = o.setAll (l.flatMap f) := by
  induction l generalizing o with
  | nil => rfl
  | cons a l ih =>
    rw [List.map_cons, List.flatMap_cons, Obj.setAll_append, Obj.setAll, ← h a List.mem_cons_self o ho]
    have hcs := (o.setitem_cs (x a).1 (x a).2).1
    revert hcs
    rcases o.setitem (x a).1 (x a).2 with ⟨_ | _, o'⟩
    · exact fun _ => rfl
    · intro hcs
      exact ih (fun b hb => h b (List.mem_cons_of_mem _ hb)) o' (hcs.trans ho)

/-- Assigning to an entry with repetitions assigns to every repetition its part of the payload, in row-major order. -/
theorem setitem_dist (cs : CS) (hwf : WFs cs.struct.entries cs.struct.order) {a es' o'}
    (h : IsAt cs.struct.entries cs.struct.order a es' o') {e : Entry} (he : e ∈ es') {ds2 : List ℕ} :
    ∀ (ds1 : List ℕ) (ks : CIdx) (_ : e.dims = ds1 ++ ds2) (_ : InDims ks ds1) (pay : Pay V) (_ : pay.Covers ds2) (o : Obj V)
      (_ : o.cs = cs), o.setitem ((a ++ .str e.name :: ks).map .ofKey) pay =
      o.setAll ((tuples ds2).map fun is => ((a ++ .str e.name :: (ks ++ natKeys is)).map .ofKey, (pay.at is).getD .none)) := by
  induction ds2 with
  | nil =>
    intro ds1 ks hds hks pay _ o _
    show _ = o.setAll [((a ++ .str e.name :: (ks ++ natKeys [])).map .ofKey, pay)]
    rw [Obj.setAll_single]
    simp [natKeys]
  | cons d ds ih =>
    intro ds1 ks hds hks pay hc o ho
    have hsub : ∀ i < d, pay.sub i = some ((pay.sub i).getD .none) := by
      intro i hi
      obtain ⟨q, hq, _⟩ := hc i hi
      rw [hq]; rfl
    subst ho
    rw [C46_all o hwf a es' o' h e he ks ds1 ds d hds hks pay,
      setitem_selects o hwf h he hds hks [] (selects_all d) pay (fun i => (pay.sub i.toNat).getD .none) (by
        intro i hi
        obtain ⟨j, hj, rfl⟩ := List.mem_map.1 hi
        rw [List.mem_range] at hj
        rw [payloadUnpack_sub (hsub j hj)]
        rfl), List.map_map]
    rw [Obj.setAll_flatMap (List.range d) _ (fun i => (tuples ds).map fun is =>
      ((a ++ .str e.name :: ((ks ++ [Key.int (i : ℕ)]) ++ natKeys is)).map .ofKey, (((pay.sub i).getD .none).at is).getD .none))
      o.cs ?_ o rfl]
    · congr 1
      rw [tuples, List.map_flatMap]
      apply List.flatMap_congr
      intro i hi
      rw [List.map_map]
      apply List.map_congr_left
      intro is _
      simp only [Function.comp, Pay.at, natKeys, List.map_cons, List.append_assoc, List.singleton_append]
      rw [List.mem_range] at hi
      rw [hsub i hi]
      rfl
    · intro i hi o2 ho2
      rw [List.mem_range] at hi
      obtain ⟨q, hq, hqc⟩ := hc i hi
      have := ih (ds1 ++ [d]) (ks ++ [.int i]) (by rw [hds]; simp) (List.rel_append hks (.cons ⟨i, hi, rfl⟩ .nil)) q hqc o2 ho2
      rw [hq, Option.getD_some, ← this]
      simp only [Function.comp, Int.toNat_natCast, hq, Option.getD_some]
      simp [PIdx.ofKey]

end

/-! ## Reading all repetitions -/

/-- Nested lists over all tuples of repeat indices. -/
def nest {R : Type} : List ℕ → (List ℕ → R) → Tree R
  | [], f => .leaf (f [])
  | d :: ds, f => .list ((List.range d).map fun i => nest ds fun is => f (i :: is))

theorem getitem_nest [Zero V] [Add V] [Sub V] (o : Obj V) (hwf : WFs o.cs.struct.entries o.cs.struct.order) {a es' o'}
    (h : IsAt o.cs.struct.entries o.cs.struct.order a es' o') {e : Entry} (he : e ∈ es') {ds2 : List ℕ} :
    ∀ (ds1 : List ℕ) (ks : CIdx) (_ : e.dims = ds1 ++ ds2) (_ : InDims ks ds1) (g : List ℕ → SMat V)
      (_ : ∀ is, List.Forall₂ (· < ·) is ds2 → o.getitem ((a ++ .str e.name :: (ks ++ natKeys is)).map .ofKey) = .ok (.leaf (g is))),
      o.getitem ((a ++ .str e.name :: ks).map .ofKey) = .ok (nest ds2 g) := by
  induction ds2 with
  | nil =>
    intro ds1 ks hds hks g hg
    have := hg [] .nil
    simp only [natKeys, List.map_nil, List.append_nil] at this
    exact this
  | cons d ds ih =>
    intro ds1 ks hds hks g hg
    rw [C45_all o hwf a es' o' h e he ks ds1 ds d hds hks, List.mapM_map]
    rw [except_mapM_ok _ _ (fun i => nest ds fun is => g (i :: is))]
    · rfl
    · intro i hi
      rw [List.mem_range] at hi
      have := ih (ds1 ++ [d]) (ks ++ [.int i]) (by rw [hds]; simp) (List.rel_append hks (.cons ⟨i, hi, rfl⟩ .nil))
        (fun is => g (i :: is)) (by
          intro is his
          rw [← hg (i :: is) (.cons hi his)]
          simp [natKeys])
      rw [← this]
      simp [PIdx.ofKey]

/-! ## The effect of a write on `master` -/

/-- The payload can be written to the part `a` (with pattern `sp` in `master`), which then stores the value `f q` at position
`q` of the pattern.  An entry of type 'symm' takes a matrix with its declared pattern, or a scalar, and stores the upper
triangle. -/
inductive Accepts [Zero V] (es : List Entry) : CIdx → Pay V → Sparsity → (ℕ × ℕ → V) → Prop
  | plain {a e sp pay m f} : IsPart es a e sp → (∀ p, e = some p → p.symm = false) → IsValue pay m → m.WF → Fits sp m f →
      Accepts es a pay sp f
  | symm {a p osp pay m f} : IsLeaf es a p → IsSymm p osp → IsValue pay m → m.WF →
      (m.sp = osp ∧ f = m.at') ∨ (m.sp.rows = 1 ∧ m.sp.cols = 1 ∧ f = fun _ => m.at' (0, 0)) → Accepts es a pay p.sp f

section
variable [Zero V]

/-- The stored values of a part. -/
def stored (c : CS) (master : List V) (a : CIdx) : List V :=
  match dictGet c.map a with
  | some i => i.data.map fun k => master.getD k 0
  | none => []

theorem Accepts.part {es : List Entry} {a : CIdx} {pay : Pay V} {sp : Sparsity} {f : ℕ × ℕ → V} (h : Accepts es a pay sp f) :
    ∃ e, IsPart es a e sp := by
  cases h with
  | plain h => exact ⟨_, h⟩
  | symm h => exact ⟨_, .leaf h⟩

theorem accepts_setCall {c : CS} {ls} (hb : Built c ls) (hwf : WFs c.struct.entries c.struct.order) {master : List V}
    (hlen : master.length = c.size) {a : CIdx} {pay : Pay V} {sp : Sparsity} {f : ℕ × ℕ → V}
    (h : Accepts c.struct.entries a pay sp f) :
    ∃ e i master', IsPart c.struct.entries a e sp ∧ dictGet c.map a = some i ∧ i.sp = sp ∧ (∀ k ∈ i.data, k < c.size) ∧
      setCall c.map pay a (some []) e master = (.ok (), master') ∧ master'.length = master.length ∧
      (i.data.map fun k => master'.getD k 0) = sp.nz.map f ∧ ∀ k ∉ i.data, master'[k]? = master[k]? := by
  cases h with
  | @plain e _ _ m _ ha hs hp hm hf =>
    obtain ⟨i, hg, hw, hnd, hin, rfl⟩ := hb.part hwf ha
    have hin' : ∀ k ∈ i.data, k < master.length := by rw [hlen]; exact hin
    obtain ⟨m1, g1, g2, g3, g4⟩ := assign_spec (master := master) hw.2 hnd hin' (written_of_fits hw hm hf)
    refine ⟨e, i, m1, ha, hg, rfl, hin, ?_, g2, ?_, g4⟩
    · rw [setCall_plain _ _ _ _ _ hs hp.toMat (imCall_part e hg), g1]
    · rw [gather_ok (by rw [g2]; exact hin')] at g3
      exact congrArg SMat.data (Except.ok.inj g3)
  | @symm p osp _ m _ ha hs hp hm hf =>
    obtain ⟨i, hg, hw, hnd, hin, hsp⟩ := hb.part hwf (.leaf ha)
    have hin' : ∀ k ∈ i.data, k < master.length := by rw [hlen]; exact hin
    have hcanp : p.sp.Canon := ha.canon hwf
    suffices key : ∃ master', setCall c.map pay a (some []) (some p) master = (.ok (), master') ∧ master'.length = master.length ∧
        gather master' i = .ok ⟨i.sp, i.sp.nz.map f⟩ ∧ ∀ k ∉ i.data, master'[k]? = master[k]? by
      obtain ⟨m1, g1, g2, g3, g4⟩ := key
      refine ⟨_, i, m1, .leaf ha, hg, hsp, hin, g1, g2, ?_, g4⟩
      rw [gather_ok (by rw [g2]; exact hin')] at g3
      rw [← hsp]
      exact congrArg SMat.data (Except.ok.inj g3)
    have hscalar : m.isScalar = true → (f = fun _ => m.at' (0, 0)) ∨ ∀ q ∈ i.sp.nz, f q = m.at' (0, 0) := by
      intro h1
      have h1 : m.sp.rows = 1 ∧ m.sp.cols = 1 := by simpa [SMat.isScalar] using h1
      rcases hf with ⟨h2, h3⟩ | ⟨_, _, h3⟩
      · right
        intro q hq
        rw [h3]
        have := hw.1.mem hq
        rw [hsp, hs.rows, hs.cols, ← h2] at this
        have : q = (0, 0) := Prod.ext (by simp only; omega) (by simp only; omega)
        rw [this]
      · exact .inl h3
    obtain ⟨sp, sy, og, ss⟩ := p
    obtain rfl : sy = true := hs.symm
    obtain rfl : og = some osp := hs.orig
    by_cases hsc : m.isScalar = true
    · have h1 : m.sp.rows = 1 ∧ m.sp.cols = 1 := by simpa [SMat.isScalar] using hsc
      have hfit : Fits i.sp m fun _ => m.at' (0, 0) := .scalar h1.1 h1.2
      obtain ⟨m1, g1, g2, g3, g4⟩ := assign_spec (master := master) hw.2 hnd hin' (written_of_fits hw hm hfit)
      obtain ⟨m2, k1, k2, k3, k4⟩ := assign_spec (master := m1) hw.2 hnd (by rw [g2]; exact hin') (written_of_fits hw hm hfit)
      refine ⟨m2, ?_, k2.trans g2, ?_, fun k hk => (k4 k hk).trans (g4 k hk)⟩
      · unfold setCall
        rw [hp.toMat]
        simp only [hg, Option.getD_some, performExtraIndex, hsc, if_true, g1, k1]
      · rw [k3]
        congr 2
        apply List.map_congr_left
        intro q hq
        rcases hscalar hsc with h | h
        · rw [h]
        · exact (h q hq).symm
    · have hmo : m.sp = osp ∧ f = m.at' := by
        rcases hf with h | ⟨h1, h2, _⟩
        · exact h
        · exact absurd (by simp [SMat.isScalar, h1, h2]) hsc
      have hisp : i.sp.Canon := hw.1
      have hr : i.sp.rows = m.sp.rows := by rw [hsp, hs.rows, hmo.1]
      have hcl : i.sp.cols = m.sp.cols := by rw [hsp, hs.cols, hmo.1, hs.square]
      have hsq : m.sp.rows = m.sp.cols := by rw [hmo.1]; exact hs.square
      obtain ⟨m1, g1, g2, g3, g4⟩ := assign_spec (master := master) hw.2 hnd hin'
        (written_of_fits hw (SMat.fill_WF hisp m.T.at') (.same rfl rfl))
      obtain ⟨m2, k1, k2, k3, k4⟩ := assign_spec (master := m1) hw.2 hnd (by rw [g2]; exact hin')
        (written_of_fits hw (SMat.fill_WF hisp m.at') (.same rfl rfl))
      refine ⟨m2, ?_, k2.trans g2, ?_, fun k hk => (k4 k hk).trans (g4 k hk)⟩
      · unfold setCall
        rw [hp.toMat]
        simp only [hg, Option.getD_some, performExtraIndex, hsc, Bool.false_eq_true, if_false]
        rw [if_neg (by rw [hmo.1]; simp), if_neg (by rw [hr, hcl, hsq]; simp), SMat.project, SMat.project, g1]
        simp only
        rw [if_neg (by rw [hr, hcl]; simp), k1]
      · rw [k3]
        congr 2
        apply List.map_congr_left
        intro q hq
        rw [SMat.fill_at' hisp, if_pos hq, hmo.2]

/-- A write that is accepted changes exactly the values stored for the part. -/
theorem accepts_write {c : CS} {ls} (hb : Built c ls) (hwf : WFs c.struct.entries c.struct.order) {master : List V}
    (hlen : master.length = c.size) {prio : List (CIdx × SMat V)} {a : CIdx} {pay : Pay V} {sp : Sparsity} {f : ℕ × ℕ → V}
    (h : Accepts c.struct.entries a pay sp f) :
    ∃ i master', dictGet c.map a = some i ∧ i.sp = sp ∧ (∀ k ∈ i.data, k < c.size) ∧
      (⟨c, master, prio⟩ : Obj V).setitem (a.map .ofKey) pay = (.ok (), ⟨c, master', prio⟩) ∧ master'.length = master.length ∧
      (i.data.map fun k => master'.getD k 0) = sp.nz.map f ∧ ∀ k ∉ i.data, master'[k]? = master[k]? := by
  obtain ⟨e, i, m1, ha, hg, hsp, hin, h1, h2, h3, h4⟩ := accepts_setCall hb hwf hlen h
  refine ⟨i, m1, hg, hsp, hin, ?_, h2, h3, h4⟩
  have h := Obj.setitem_part (⟨c, master, prio⟩ : Obj V) hwf ha [] (fun _ => rfl) pay
  rw [List.append_nil] at h
  rw [h]
  simp only
  rw [h1]
  rfl

theorem Accepts.unique {c : CS} {ls} (hb : Built c ls) (hwf : WFs c.struct.entries c.struct.order) {a : CIdx} {pay : Pay V}
    {sp sp' : Sparsity} {f f' : ℕ × ℕ → V}
    (h : Accepts c.struct.entries a pay sp f) (h' : Accepts c.struct.entries a pay sp' f') : sp = sp' ∧ sp.nz.map f = sp'.nz.map f' := by
  obtain ⟨i, m1, g1, g2, g3, g4, g5, g6, g7⟩ := accepts_write hb hwf (master := List.replicate c.size 0) (by simp) (prio := []) h
  obtain ⟨j, m2, k1, k2, k3, k4, k5, k6, k7⟩ := accepts_write hb hwf (master := List.replicate c.size 0) (by simp) (prio := []) h'
  rw [g1] at k1
  cases k1
  rw [g4] at k4
  cases k4
  exact ⟨g2.symm.trans k2, g6.symm.trans k6⟩

/-- Writes to parts that do not overlap. -/
theorem setAll_accepts {c : CS} {ls} (hb : Built c ls) (hwf : WFs c.struct.entries c.struct.order)
    {prio : List (CIdx × SMat V)} (ws : List (CIdx × Pay V × Sparsity × (ℕ × ℕ → V)))
    (hw : ∀ w ∈ ws, Accepts c.struct.entries w.1 w.2.1 w.2.2.1 w.2.2.2)
    (hd : ws.Pairwise fun v w => ¬ v.1 <+: w.1 ∧ ¬ w.1 <+: v.1) (master : List V) (hlen : master.length = c.size) :
    ∃ master', (⟨c, master, prio⟩ : Obj V).setAll (ws.map fun w => (w.1.map .ofKey, w.2.1)) = (.ok (), ⟨c, master', prio⟩) ∧
      master'.length = c.size ∧
      (∀ w ∈ ws, stored c master' w.1 = w.2.2.1.nz.map w.2.2.2) ∧
      ∀ k, (∀ w ∈ ws, ∀ i, dictGet c.map w.1 = some i → k ∉ i.data) → master'[k]? = master[k]? := by
  induction ws generalizing master with
  | nil => exact ⟨master, rfl, hlen, by simp, by simp⟩
  | cons w ws ih =>
    rw [List.pairwise_cons] at hd
    obtain ⟨a, pay, sp, f⟩ := w
    have h0 := hw _ List.mem_cons_self
    simp only at h0
    obtain ⟨i, m1, h1, h2, h3, h4, h5, h6, h7⟩ := accepts_write hb hwf hlen (prio := prio) h0
    obtain ⟨m2, g1, g2, g3, g4⟩ := ih (fun w hw' => hw w (List.mem_cons_of_mem _ hw')) hd.2 m1 (h5.trans hlen)
    obtain ⟨e, hpa⟩ := h0.part
    refine ⟨m2, ?_, g2, ?_, ?_⟩
    · rw [List.map_cons, Obj.setAll]
      simp only
      rw [h4]
      exact g1
    · intro w hw'
      rcases List.mem_cons.1 hw' with rfl | hw'
      · simp only [stored, h1]
        rw [← h6]
        apply List.map_congr_left
        intro k hk
        rw [List.getD_eq_getElem?_getD, List.getD_eq_getElem?_getD, g4 k]
        intro w hw' j hj hkj
        obtain ⟨e', hpw⟩ := (hw w (List.mem_cons_of_mem _ hw')).part
        have := hd.1 w hw'
        exact hb.part_disjoint hwf hpa hpw this.1 this.2 h1 hj hk hkj
      · exact g3 w hw'
    · intro k hk
      rw [g4 k fun w hw' => hk w (List.mem_cons_of_mem _ hw'), h7 k (hk _ List.mem_cons_self i h1)]

theorem block_getD (master : List V) (k n : ℕ) (h : k + n ≤ master.length) :
    (block k n).map (fun j => master.getD j 0) = (master.drop k).take n := by
  apply List.ext_getElem
  · simp [block_length]; omega
  · intro i h1 h2
    simp only [List.length_map, block_length] at h1
    simp only [block, List.map_map, List.getElem_map, List.getElem_range, Function.comp, List.getElem_take, List.getElem_drop]
    rw [List.getD_eq_getElem?_getD, List.getElem?_eq_getElem (by omega), Option.getD_some]

theorem Built.stored_top {c : CS} {ls} (hb : Built c ls) (hwf : WFs c.struct.entries c.struct.order) {t : CIdx} {A B : List CIdx}
    (hAB : tops c.struct.entries c.struct.order = A ++ t :: B) {master : List V} (hlen : master.length = c.size) :
    stored c master t = (master.drop ((A.map (topSize c.struct.entries)).sum)).take (topSize c.struct.entries t) := by
  have ht : t ∈ tops c.struct.entries c.struct.order := by rw [hAB]; simp
  obtain ⟨e, he, ks, hks, rfl⟩ := (mem_tops hwf).1 ht
  have hle : (A.map (topSize c.struct.entries)).sum + topSize c.struct.entries (.str e.name :: ks) ≤ master.length := by
    rw [hlen, hb.size_eq hwf, ← sum_tops hwf, hAB]
    simp only [List.map_append, List.map_cons, List.sum_append, List.sum_cons]
    omega
  rw [stored, hb.top_pos hwf he hks hAB]
  rw [topSize_eq hwf.nodup he] at hle ⊢
  cases e with
  | prim n d p => exact block_getD _ _ _ hle
  | nested n d es' o' =>
    simp only [Entry.blockSize] at hle ⊢
    by_cases hl : leafList es' o' = []
    · rw [if_pos hl]
      have : countAll es' = 0 := by
        rw [← wsum_leafList (hwf.sub _ _ _ _ he), hl]; rfl
      rw [this]; rfl
    · rw [if_neg hl]
      exact block_getD _ _ _ hle

/-- `master` is the concatenation of what is stored for the repetitions of the entries, in order. -/
theorem Built.master_tops {c : CS} {ls} (hb : Built c ls) (hwf : WFs c.struct.entries c.struct.order)
    {master : List V} (hlen : master.length = c.size) :
    master = (tops c.struct.entries c.struct.order).flatMap (stored c master) := by
  have key : ∀ B A, tops c.struct.entries c.struct.order = A ++ B →
      master.drop ((A.map (topSize c.struct.entries)).sum) = B.flatMap (stored c master) := by
    intro B
    induction B with
    | nil =>
      intro A h
      rw [List.append_nil] at h
      rw [← h, sum_tops hwf, ← hb.size_eq hwf, ← hlen, List.drop_length]
      rfl
    | cons t B ih =>
      intro A h
      have := ih (A ++ [t]) (by rw [h]; simp)
      rw [List.flatMap_cons, ← this, hb.stored_top hwf h hlen, List.map_append, List.sum_append, ← List.drop_drop]
      simp only [List.map_cons, List.map_nil, List.sum_cons, List.sum_nil, Nat.add_zero]
      rw [List.take_append_drop]
  have := key (tops c.struct.entries c.struct.order) [] rfl
  simpa using this

end

end CE.St
