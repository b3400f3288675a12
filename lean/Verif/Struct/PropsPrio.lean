import Verif.Struct.LemPrio

/-! # MX structs: the priority map (C54), assignments after construction (C53), views of MX matrices (C50) -/

namespace CE.St

variable {V : Type}

/-! ## C54 -/

theorem getCall_prio [Zero V] [Add V] [Sub V] {c : CS} {ls} (hb : Built c ls) (hwf : WFs c.struct.entries c.struct.order)
    {master : List V} (hl : master.length = c.size) {prio : Prio V}
    (hp : ∀ d i, dictGet c.map d = some i → dictGet prio d = some (partVal master i)) (d : CIdx)
    (x : Option (List (PIdx (PyFn V)))) (e : Option Prim) :
    getCall c.map prio master d x e = getCall c.map [] master d x e := by
  unfold getCall
  cases h : dictGet c.map d with
  | none => rfl
  | some i =>
    have hg : gather master i = .ok (partVal master i) :=
      gather_ok fun k hk => by rw [hl]; exact hb.get_lt hwf h k hk
    simp only [hp d i h, dictGet_nil]
    cases x.getD [] with
    | cons y ys => rfl
    | nil =>
      simp only [performExtraIndex]
      show _ = Except.bind (gather master i) _
      rw [hg]
      rfl

/-- An object whose priority map holds the values of the parts reads like one without. -/
theorem getitem_prio [Zero V] [Add V] [Sub V] {c : CS} {ls} (hb : Built c ls) (hwf : WFs c.struct.entries c.struct.order)
    {master : List V} (hl : master.length = c.size) {prio : Prio V}
    (hp : ∀ d i, dictGet c.map d = some i → dictGet prio d = some (partVal master i)) (pi : List (PIdx (PyFn V))) :
    (⟨c, master, prio⟩ : Obj V).getitem pi = (⟨c, master, []⟩ : Obj V).getitem pi := by
  have : getDisp c.map prio master = getDisp c.map [] master := by
    unfold getDisp
    congr
    funext _ _ d x e
    rw [getCall_prio hb hwf hl hp]
  rw [Obj.getitem, Obj.getitem]
  simp only
  rw [this]

theorem buildMap_right [Zero V] {c : CS} {ls} (hb : Built c ls) (hwf : WFs c.struct.entries c.struct.order) {l : List V}
    (hl : l.length = c.size) : ∃ prio, buildMap c.struct (.col l) = .ok prio ∧
      ∀ d i, dictGet c.map d = some i → dictGet prio d = some (partVal l i) := by
  obtain ⟨m, h1, _, h3⟩ := buildGo_right (V := V) hwf c ls hb rfl l hl [] []
  exact ⟨m, h1, h3⟩

/-- **C54**: the constructor of a symbolic MX struct succeeds, and the new struct reads, for every power index, what is read
by indexing `.cat` with the index matrices (that is, by the same struct without the vertsplit map). -/
theorem C54_read [Zero V] [Add V] [Sub V] (s : Struct) (hwf : WFs s.entries s.order) :
    ∃ c, CS.ofStruct s = .ok c ∧ ∀ sym : List V, sym.length = c.size → ∃ o, newSymMX c sym = .ok o ∧ o.cs = c ∧
      o.master = sym ∧ ∀ pi, o.getitem pi = (⟨c, sym, []⟩ : Obj V).getitem pi := by
  obtain ⟨c, ls, h1, rfl, hb⟩ := ofStruct_built hwf
  refine ⟨c, h1, fun sym hl => ?_⟩
  obtain ⟨prio, h2, h3⟩ := buildMap_right hb hwf hl
  refine ⟨⟨c, sym, prio⟩, ?_, rfl, rfl, fun pi => getitem_prio hb hwf hl h3 pi⟩
  rw [newSymMX, h2]
  rfl

/-- **C54** (positions): for a primitive element or a nested struct the vertsplit map has an element, `s[k]` is this element,
and it consists of the elements of `.cat` at the positions `s.i[k]`, with the pattern of `s.i[k]`. -/
theorem C54_positions [Zero V] [Add V] [Sub V] (s : Struct) (hwf : WFs s.entries s.order) :
    ∃ c, CS.ofStruct s = .ok c ∧ ∀ sym : List V, sym.length = c.size → ∃ o, newSymMX c sym = .ok o ∧
      ∀ a e sp, IsPart s.entries a e sp → (∀ p, e = some p → p.symm = false) →
        ∃ (i : IMat) (r : SMat V), c.i (V := V) (a.map .ofKey) = .ok (.leaf i) ∧ dictGet o.prio a = some r ∧
          o.getitem (a.map .ofKey) = .ok (.leaf r) ∧ r.sp = sp ∧ i.sp = sp ∧ r.data.length = i.data.length ∧
          ∀ j k : ℕ, i.data[j]? = some k → ∃ v, sym[k]? = some v ∧ r.data[j]? = some v := by
  obtain ⟨c, ls, h1, rfl, hb⟩ := ofStruct_built hwf
  refine ⟨c, h1, fun sym hl => ?_⟩
  obtain ⟨prio, h2, h3⟩ := buildMap_right hb hwf hl
  refine ⟨⟨c, sym, prio⟩, by rw [newSymMX, h2]; rfl, ?_⟩
  intro a e sp ha hs
  obtain ⟨i, g1, g2, g3, g4, g5, g6⟩ := getitem_plain hb hwf hl ha hs
  have hi : c.i (V := V) (a.map .ofKey) = .ok (.leaf i) := by
    have := CS.i_part (V := V) c hwf ha [] (fun _ => rfl)
    rw [List.append_nil] at this
    rw [this, imCall_part e g1]
    rfl
  refine ⟨i, partVal sym i, hi, h3 a i g1, ?_, g2, g2, by simp [partVal], ?_⟩
  · rw [getitem_prio hb hwf hl h3, g6, partVal, g2]
  · intro j k hk
    have hlt : k < sym.length := by rw [hl]; exact g5 k (List.mem_of_getElem? hk)
    refine ⟨sym[k], List.getElem?_eq_getElem hlt, ?_⟩
    rw [partVal, List.getElem?_map, hk, Option.map_some, List.getD_eq_getElem?_getD, List.getElem?_eq_getElem hlt]
    rfl

/-! ## C53 -/

theorem newMXStruct_right [Zero V] {c : CS} {ls} (hb : Built c ls) (hwf : WFs c.struct.entries c.struct.order) {data : SMat V}
    (h1 : data.sp.rows = c.size) (h2 : data.sp.cols = 1) :
    ∃ prio, newMXStruct c data = .ok ⟨c, data.toColumn, prio⟩ ∧
      ∀ d i, dictGet c.map d = some i → dictGet prio d = some (partVal data.toColumn i) := by
  have hl : data.toColumn.length = c.size := by simp [SMat.toColumn, h1]
  obtain ⟨prio, h3, h4⟩ := buildMap_right hb hwf hl
  refine ⟨prio, ?_, h4⟩
  rw [newMXStruct, newMatrixStruct, if_neg (by simp [h1]), if_neg (by simp [h2])]
  show (do let prio ← buildMap c.struct (.col data.toColumn); pure _) = _
  rw [h3]
  rfl

theorem Obj.setAll_cs [Zero V] (o : Obj V) (ws : List (List (PIdx (PyFn V)) × Pay V)) :
    (o.setAll ws).2.cs = o.cs ∧ (o.setAll ws).2.prio = o.prio := by
  induction ws generalizing o with
  | nil => exact ⟨rfl, rfl⟩
  | cons w ws ih =>
    obtain ⟨pi, v⟩ := w
    have h := o.setitem_cs pi v
    rw [Obj.setAll]
    rcases hs : o.setitem pi v with ⟨r, o'⟩
    rw [hs] at h
    cases r with
    | error e => exact h
    | ok u =>
      have := ih o'
      exact ⟨this.1.trans h.1, this.2.trans h.2⟩

/-- **C53** is false of the code: whatever is assigned to a `struct_MX_mutable` after its construction, every primitive
element and every nested struct still reads as it did after construction. -/
theorem C53_stale [Zero V] [Add V] [Sub V] (s : Struct) (hwf : WFs s.entries s.order) :
    ∃ c, CS.ofStruct s = .ok c ∧ ∀ data : SMat V, data.sp.rows = c.size → data.sp.cols = 1 →
      ∃ o, newMXStruct c data = .ok o ∧ ∀ (ws : List (List (PIdx (PyFn V)) × Pay V)) a e sp, IsPart s.entries a e sp →
        (o.setAll ws).2.getitem (a.map .ofKey) = o.getitem (a.map .ofKey) ∧
        o.getitem (a.map .ofKey) = (⟨c, data.toColumn, []⟩ : Obj V).getitem (a.map .ofKey) := by
  obtain ⟨c, ls, h1, rfl, hb⟩ := ofStruct_built hwf
  refine ⟨c, h1, fun data hr hc => ?_⟩
  obtain ⟨prio, h3, h4⟩ := newMXStruct_right hb hwf hr hc
  have hl : data.toColumn.length = c.size := by simp [SMat.toColumn, hr]
  refine ⟨_, h3, ?_⟩
  intro ws a e sp ha
  refine ⟨?_, getitem_prio hb hwf hl h4 _⟩
  have hcs := (⟨c, data.toColumn, prio⟩ : Obj V).setAll_cs ws
  generalize ((⟨c, data.toColumn, prio⟩ : Obj V).setAll ws).2 = o' at hcs
  obtain ⟨c', m', prio'⟩ := o'
  obtain ⟨rfl, rfl⟩ := hcs
  obtain ⟨i, hi, _⟩ := hb.part hwf ha
  have e1 := Obj.getitem_part (⟨c', m', prio'⟩ : Obj V) hwf ha [] (fun _ => rfl)
  have e2 := Obj.getitem_part (⟨c', data.toColumn, prio'⟩ : Obj V) hwf ha [] (fun _ => rfl)
  rw [List.append_nil] at e1 e2
  rw [e1, e2]
  simp only [getCall, hi, h4 a i hi, Option.getD_some]

/-- **C53** (refuted): a struct with one number that is 1 at first; after 2 is assigned, it still reads 1. -/
theorem C53_refuted : ∃ c, CS.ofStruct (oneStruct ⟨.dense 1 1, false, none, none⟩) = .ok c ∧
    ∃ o o' : Obj ℤ, newMXStruct c (.col [1]) = .ok o ∧ o.setitem [.str "P"] (.num 2) = (.ok (), o') ∧
      o'.getitem [.str "P"] = .ok (.leaf (.scalar 1)) ∧ o'.master = [2] := by
  have hc : (⟨.dense 1 1, false, none, none⟩ : Prim).sp.Canon := Sparsity.dense_canon _ _
  have hwf := oneStruct_wf hc
  have hleaf := oneStruct_leaf ⟨.dense 1 1, false, none, none⟩
  obtain ⟨c, ls, h1, h2, hb⟩ := ofStruct_built hwf
  have hwc : WFs c.struct.entries c.struct.order := by rw [h2]; exact hwf
  have hsz : c.size = 1 := by rw [hb.size_eq hwc, h2]; rfl
  obtain ⟨c', g1, g2⟩ := C53_stale (V := ℤ) _ hwf
  rw [h1] at g1
  cases g1
  obtain ⟨o, g3, g4⟩ := g2 (.col [1]) (by rw [hsz]; rfl) rfl
  obtain ⟨prio, g5, _⟩ := newMXStruct_right (V := ℤ) hb hwc (data := .col [1]) (by rw [hsz]; rfl) rfl
  rw [g3] at g5
  cases g5
  have hpart : IsPart c.struct.entries [.str "P"] (some ⟨.dense 1 1, false, none, none⟩) (.dense 1 1) := by
    rw [h2]; exact .leaf hleaf
  have hlist : leafList c.struct.entries c.struct.order = [[.str "P"]] := by
    rw [h2]; exact rfl
  have hget : dictGet c.map [.str "P"] = some ⟨.dense 1 1, [0]⟩ := by
    have := hb.leaf_pos hwc (A := []) (B := []) (ci := [.str "P"]) (p := ⟨.dense 1 1, false, none, none⟩) (by rw [h2]; exact hleaf)
      (by rw [hlist]; rfl)
    rw [this]
    rfl
  refine ⟨c, h1, _, ⟨c, [2], prio⟩, g3, ?_, ?_, rfl⟩
  · have := Obj.setitem_part (⟨c, [1], prio⟩ : Obj ℤ) hwc hpart [] (fun _ => rfl) (.num 2)
    rw [List.append_nil] at this
    show (⟨c, [1], prio⟩ : Obj ℤ).setitem ([Key.str "P"].map .ofKey) _ = _
    rw [this]
    simp only [setCall, Pay.toMat, hget, Option.getD_some, performExtraIndex]
    rfl
  · obtain ⟨k1, k2⟩ := g4 [([.str "P"], .num 2)] _ _ _ (.leaf hleaf)
    have := Obj.setitem_part (⟨c, [1], prio⟩ : Obj ℤ) hwc hpart [] (fun _ => rfl) (.num 2)
    rw [List.append_nil] at this
    have hset : (⟨c, [1], prio⟩ : Obj ℤ).setAll [([.str "P"], .num 2)] = (.ok (), ⟨c, [2], prio⟩) := by
      rw [Obj.setAll_single]
      show (⟨c, [1], prio⟩ : Obj ℤ).setitem ([Key.str "P"].map .ofKey) _ = _
      rw [this]
      simp only [setCall, Pay.toMat, hget, Option.getD_some, performExtraIndex]
      rfl
    have hcol : (SMat.col [(1 : ℤ)]).toColumn = [1] := rfl
    rw [hcol] at k1 k2
    rw [hset, k2] at k1
    show (⟨c, [2], prio⟩ : Obj ℤ).getitem ([Key.str "P"].map .ofKey) = _
    rw [k1]
    obtain ⟨i, e1, e2, _, _, _, e3⟩ := getitem_plain hb hwc (master := [(1 : ℤ)]) (by rw [hsz]; rfl) hpart
      (by intro p hp; cases hp; rfl)
    rw [e3]
    rw [hget] at e1
    cases e1
    rfl

/-- **C53** (what holds): an assignment to a `struct_MX_mutable` returns or raises like one to a struct without vertsplit map
and changes `.cat` in the same way; reading a primitive element with a further index (for instance `s[k, :]`) sees the
latest assignment. -/
theorem C53_partial [Zero V] [Add V] [Sub V] (c : CS) (hwf : WFs c.struct.entries c.struct.order) (master : List V)
    (prio : Prio V) (ws : List (List (PIdx (PyFn V)) × Pay V)) :
    ((⟨c, master, prio⟩ : Obj V).setAll ws).1 = ((⟨c, master, []⟩ : Obj V).setAll ws).1 ∧
      ((⟨c, master, prio⟩ : Obj V).setAll ws).2.master = ((⟨c, master, []⟩ : Obj V).setAll ws).2.master ∧
      ∀ a p, IsLeaf c.struct.entries a p → ∀ x, x ≠ [] →
        ((⟨c, master, prio⟩ : Obj V).setAll ws).2.getitem (a.map .ofKey ++ x) =
          ((⟨c, master, []⟩ : Obj V).setAll ws).2.getitem (a.map .ofKey ++ x) := by
  have hone : ∀ (master : List V) pi v, ∃ r m, (⟨c, master, prio⟩ : Obj V).setitem pi v = (r, ⟨c, m, prio⟩) ∧
      (⟨c, master, []⟩ : Obj V).setitem pi v = (r, ⟨c, m, []⟩) := by
    intro master pi v
    rw [Obj.setitem, Obj.setitem]
    simp only
    rcases c.struct.traverse (setDisp c.map) pi v master with ⟨r, m⟩
    cases r <;> exact ⟨_, _, rfl, rfl⟩
  have hall : ∀ (master : List V), ∃ r m, (⟨c, master, prio⟩ : Obj V).setAll ws = (r, ⟨c, m, prio⟩) ∧
      (⟨c, master, []⟩ : Obj V).setAll ws = (r, ⟨c, m, []⟩) := by
    induction ws with
    | nil => intro master; exact ⟨_, _, rfl, rfl⟩
    | cons w ws ih =>
      intro master
      obtain ⟨pi, v⟩ := w
      obtain ⟨r, m, h1, h2⟩ := hone master pi v
      rw [Obj.setAll, Obj.setAll, h1, h2]
      cases r with
      | error e => exact ⟨_, _, rfl, rfl⟩
      | ok u => exact ih m
  obtain ⟨r, m, h1, h2⟩ := hall master
  rw [h1, h2]
  refine ⟨rfl, rfl, ?_⟩
  intro a p ha x hx
  rw [Obj.getitem_part _ hwf (.leaf ha) x (fun h => by cases h), Obj.getitem_part _ hwf (.leaf ha) x (fun h => by cases h)]
  simp only
  congr 2
  unfold getCall
  cases dictGet c.map a with
  | none => rfl
  | some i =>
    cases x with
    | nil => exact absurd rfl hx
    | cons y ys => cases dictGet prio a <;> rfl

/-! ## C50 for MX data -/

theorem foldlM_error {α β : Type} {f : β → α → Except PyErr β} {l : List α} {a : α} (ha : a ∈ l)
    (h : ∀ b, ∃ e, f b a = .error e) (b : β) : ∃ e, l.foldlM f b = .error e := by
  induction l generalizing b with
  | nil => cases ha
  | cons a' l ih =>
    rw [List.foldlM_cons]
    cases hf : f b a' with
    | error e => exact ⟨e, rfl⟩
    | ok b' =>
      rcases List.mem_cons.1 ha with rfl | ha
      · obtain ⟨e, he⟩ := h b
        rw [he] at hf
        cases hf
      · exact ih ha b'

theorem offsets_length (k : ℕ) (ns : List ℕ) : (offsets k ns).length = ns.length := by
  induction ns generalizing k with
  | nil => rfl
  | cons n ns ih => rw [offsets, List.length_cons, ih, List.length_cons]

/-- Every repetition of an entry is paired with a block of rows. -/
theorem mem_split {α β : Type} (g : ℕ → ℕ → β) (size : α → ℕ) (ts : List α) (k : ℕ) {t : α} (ht : t ∈ ts) :
    ∃ a, a + size t ≤ k + (ts.map size).sum ∧ (t, g a (size t)) ∈ ts.zip (List.zipWith (fun a b => g a (b - a))
      (offsets k (ts.map size) ++ [k + (ts.map size).sum]) (offsets k (ts.map size) ++ [k + (ts.map size).sum]).tail) := by
  induction ts generalizing k with
  | nil => cases ht
  | cons t' ts ih =>
    have key : List.zipWith (fun a b => g a (b - a)) (offsets k ((t' :: ts).map size) ++ [k + ((t' :: ts).map size).sum])
        (offsets k ((t' :: ts).map size) ++ [k + ((t' :: ts).map size).sum]).tail = g k (size t') ::
        List.zipWith (fun a b => g a (b - a)) (offsets (k + size t') (ts.map size) ++ [k + size t' + (ts.map size).sum])
          (offsets (k + size t') (ts.map size) ++ [k + size t' + (ts.map size).sum]).tail := by
      rw [List.map_cons, offsets, List.cons_append, List.tail_cons, List.sum_cons, ← Nat.add_assoc]
      cases ts with
      | nil => simp [offsets]
      | cons t'' ts => simp [offsets]
    rw [key, List.zip_cons_cons, List.map_cons, List.sum_cons]
    rcases List.mem_cons.1 ht with rfl | ht
    · exact ⟨k, by omega, List.mem_cons_self⟩
    · obtain ⟨a, h1, h2⟩ := ih (k + size t') ht
      exact ⟨a, by omega, List.mem_cons_of_mem _ h2⟩

theorem asPart_two [Zero V] {sp : Sparsity} {l : List V} {n : ℕ} (hsp : sp.nnz = n) (hn : 0 < n) :
    asPart sp ⟨.dense n 2, l⟩ = .error .runtime := by
  have h2 : (Sparsity.dense n 2).nz.length = n * 2 := Sparsity.positions_length _ _
  rw [asPart, if_neg, mxOf, if_neg, if_neg, if_neg]
  · rintro ⟨h, _⟩
    cases h
  · simp [SMat.isScalar, Sparsity.dense]
  · rintro ⟨_, h⟩
    have := congrArg List.length h
    simp only [Sparsity.linear, List.length_map, h2] at this
    rw [Sparsity.nnz] at hsp
    omega
  · rintro rfl
    rw [Sparsity.nnz, h2] at hsp
    omega

theorem sum_pos_mem {α : Type} (f : α → ℕ) (l : List α) (h : 0 < (l.map f).sum) : ∃ a ∈ l, 0 < f a := by
  induction l with
  | nil => simp at h
  | cons a l ih =>
    by_cases ha : 0 < f a
    · exact ⟨a, List.mem_cons_self, ha⟩
    · obtain ⟨b, hb, h2⟩ := ih (by rw [List.map_cons, List.sum_cons] at h; omega)
      exact ⟨b, List.mem_cons_of_mem _ hb, h2⟩

theorem topItem_nnz [Zero V] {es o} (hwf : WFs es o) :
    ((tops es o).map (topItem (V := V) es)).map (fun e : TopItem V => e.2.1.nnz) = (tops es o).map (topSize es) := by
  rw [List.map_map]
  apply List.map_congr_left
  intro t ht
  obtain ⟨e, he, ks, hks, rfl⟩ := (mem_tops hwf).1 ht
  rw [Function.comp, topItem_eq hwf.nodup he, topSize_eq hwf.nodup he]
  exact Entry.topSp'_nnz e

theorem buildGo_eq [Zero V] {es o} (hwf : WFs es o) (pre : CIdx) (parent : SMat V) (m : Prio V) :
    buildGo (Struct.traverseCanonicalIndex ⟨es, o⟩ 1) (buildTable es) pre parent m = (do
      let parts ← vertsplit parent (offsets 0 ((tops es o).map (topSize es)) ++ [parent.sp.rows])
      (((tops es o).map (topItem es)).zip parts).foldlM (buildStep pre) m) := by
  rw [buildGo, traverseCanonicalIndex_one, tops_items hwf, ← topItem_nnz (V := V) hwf]
  rfl

/-- `buildMap` raises for a matrix with two columns. -/
theorem buildGo_two [Zero V] {es o} (hwf : WFs es o) : ∀ (n : ℕ) (l : List V), n = countAll es → 0 < n → l.length = n * 2 →
    ∀ pre m, ∃ e, buildGo (Struct.traverseCanonicalIndex ⟨es, o⟩ 1) (buildTable es) pre ⟨.dense n 2, l⟩ m = .error e := by
  induction hwf with
  | @mk es o hn hp hc hsub ih =>
    have hwf : WFs es o := .mk hn hp hc hsub
    intro n l hcount hpos hl pre m
    have hsum := sum_tops hwf
    obtain ⟨t, ht, htp⟩ := sum_pos_mem (topSize es) (tops es o) (by rw [hsum]; omega)
    rw [buildGo_eq hwf]
    have hr : (⟨.dense n 2, l⟩ : SMat V).sp.rows = 0 + ((tops es o).map (topSize es)).sum := by
      rw [Nat.zero_add, hsum, ← hcount]; rfl
    have hv : vertsplit (⟨.dense n 2, l⟩ : SMat V) (offsets 0 ((tops es o).map (topSize es)) ++ [(⟨.dense n 2, l⟩ : SMat V).sp.rows]) =
        .ok (List.zipWith (fun a b => (⟨.dense n 2, l⟩ : SMat V).rowBlock a (b - a))
          (offsets 0 ((tops es o).map (topSize es)) ++ [0 + ((tops es o).map (topSize es)).sum])
          (offsets 0 ((tops es o).map (topSize es)) ++ [0 + ((tops es o).map (topSize es)).sum]).tail) := by
      rw [vertsplit, hr, if_neg]
      simp only [not_or, not_not]
      exact ⟨offsets_head _ _, by simp, offsets_sorted _ _⟩
    rw [hv]
    obtain ⟨a, h1, h2⟩ := mem_split (fun a r => (⟨.dense n 2, l⟩ : SMat V).rowBlock a r) (topSize es) (tops es o) 0 ht
    rw [Nat.zero_add, hsum, ← hcount] at h1
    refine foldlM_error (a := (topItem es t, (⟨.dense n 2, l⟩ : SMat V).rowBlock a (topSize es t))) ?_ ?_ m
    · rw [List.zip_map_left]
      exact List.mem_map.2 ⟨_, h2, rfl⟩
    · intro m
      rw [SMat.rowBlock_dense hl h1, SMat.fill]
      obtain ⟨e, he, ks, hks, rfl⟩ := (mem_tops hwf).1 ht
      rw [topItem_eq hn he, buildStep]
      rw [topSize_eq hn he] at htp ⊢
      simp only
      cases e with
      | prim n' d p =>
        rw [Entry.builder, asPart_two (n := (Entry.prim n' d p).blockSize) (Entry.topSp'_nnz _) htp]
        exact ⟨_, rfl⟩
      | nested n' d es' o' =>
        obtain ⟨e, h3⟩ := ih n' d es' o' he (Entry.nested n' d es' o').blockSize
          ((Sparsity.dense (Entry.nested n' d es' o').blockSize 2).nz.map fun p => l.getD (p.2 * n + (a + p.1)) 0) rfl htp
          (by rw [List.length_map]; exact Sparsity.positions_length _ _) (pre ++ (Key.str (Entry.nested n' d es' o').name :: ks)) m
        rw [Entry.builder, h3]
        exact ⟨_, rfl⟩

theorem tops_repeated (es o) (m : ℕ) : tops [.nested "t" [m] es o] [.one "t"] =
    (List.range m).map fun j : ℕ => [.str "t", .int j] := by
  simp [tops, structCan, Entry.name, Entry.dims, entryCan, combine, listindices, lpack, rangeKeys, List.flatMap_map, List.flatMap_singleton']
  rw [← List.map_eq_flatMap, List.map_map]
  rfl

/-- **C50** is false for `MX` matrices with a number of columns other than one: `repeated` raises, whatever the matrix. -/
theorem C50_refuted_MX [Zero V] (s : Struct) (hwf : WFs s.entries s.order) :
    ∃ c, CS.ofStruct s = .ok c ∧ ∀ (a : SMat V), a.WF → a.sp = .dense c.size a.sp.cols → 0 < c.size → a.sp.cols ≠ 1 →
      ∃ e, c.repeatedMX a = .error e := by
  obtain ⟨c, ls, h1, rfl, hb⟩ := ofStruct_built hwf
  refine ⟨c, h1, ?_⟩
  rintro ⟨sp, l⟩ hw hsp hpos hne
  simp only at hsp
  obtain ⟨m, hm⟩ : ∃ m, sp.cols = m := ⟨_, rfl⟩
  rw [hm] at hsp
  subst hsp
  have hl : l.length = c.size * m := by
    have := hw.2
    simpa [Sparsity.dense, Sparsity.positions_length] using this
  obtain ⟨cr, lr, hbr, hsr, hrep⟩ := CS.repeated_ok (V := V) hb hwf m
  have hwr := repeated_wf hwf m
  rw [CS.repeatedMX, hrep l hl]
  show ∃ e, Except.bind (buildMap cr.struct _) _ = _
  rw [hsr, buildMap, buildGo_eq hwr]
  have hts : (tops [.nested "t" [m] c.struct.entries c.struct.order] [.one "t"]).map
      (topSize [.nested "t" [m] c.struct.entries c.struct.order]) = List.replicate m c.size := by
    rw [tops_repeated, List.map_map, List.eq_replicate_iff]
    refine ⟨by simp, ?_⟩
    intro x hx
    obtain ⟨j, hj, rfl⟩ := List.mem_map.1 hx
    have := topSize_eq hwr.nodup (List.mem_singleton_self (Entry.nested "t" [m] c.struct.entries c.struct.order)) [.int j]
    rw [hb.size_eq hwf]
    exact this
  rw [hts]
  rcases Nat.lt_or_ge m 2 with h | h
  · have : m = 0 := by simp only at hne; omega
    subst this
    refine ⟨.runtime, ?_⟩
    rw [vertsplit, if_pos]
    · rfl
    · left
      simp [offsets, Sparsity.dense]
      omega
  · rcases Nat.lt_or_ge m 3 with h' | h'
    · obtain rfl : m = 2 := by omega
      rw [tops_repeated]
      have hv : vertsplit (⟨.dense c.size 2, l⟩ : SMat V) (offsets 0 (List.replicate 2 c.size) ++
          [(⟨.dense c.size 2, l⟩ : SMat V).sp.rows]) =
          .ok [(⟨.dense c.size 2, l⟩ : SMat V).rowBlock 0 c.size, (⟨.dense c.size 2, l⟩ : SMat V).rowBlock c.size 0] := by
        rw [vertsplit, if_neg]
        · simp [offsets, List.replicate, Sparsity.dense]
        · simp [offsets, List.replicate, Sparsity.dense]
      rw [hv]
      have hstep : ∀ b, ∃ e, buildStep [] b (topItem [.nested "t" [2] c.struct.entries c.struct.order] [.str "t", .int (0 : ℕ)],
          (⟨.dense c.size 2, l⟩ : SMat V).rowBlock 0 c.size) = .error e := by
        intro b
        rw [SMat.rowBlock_dense hl (by omega), SMat.fill]
        have := topItem_eq (V := V) hwr.nodup (List.mem_singleton_self (Entry.nested "t" [2] c.struct.entries c.struct.order))
          [.int (0 : ℕ)]
        rw [show [Key.str "t", Key.int (0 : ℕ)] = Key.str (Entry.nested "t" [2] c.struct.entries c.struct.order).name :: [Key.int (0 : ℕ)] from rfl,
          this, buildStep]
        simp only
        obtain ⟨e, h3⟩ := buildGo_two (V := V) hwf c.size ((Sparsity.dense c.size 2).nz.map fun p => l.getD (p.2 * c.size + (0 + p.1)) 0)
          (hb.size_eq hwf) hpos (by rw [List.length_map]; exact Sparsity.positions_length _ _)
          ([] ++ [Key.str "t", Key.int (0 : ℕ)]) b
        refine ⟨e, ?_⟩
        rw [Entry.builder]
        have h3' : buildGo (Struct.traverseCanonicalIndex ⟨c.struct.entries, c.struct.order⟩ 1) (buildTable c.struct.entries)
          ([] ++ [Key.str "t", Key.int (0 : ℕ)]) ⟨.dense c.size 2, (Sparsity.dense c.size 2).nz.map fun p => l.getD (p.2 * c.size + (0 + p.1)) 0⟩ b = .error e := h3
        show Except.bind (buildGo _ _ ([] ++ [Key.str "t", Key.int (0 : ℕ)]) _ b) _ = _
        rw [h3']
        rfl
      obtain ⟨e, he⟩ := foldlM_error (f := buildStep (V := V) []) (l := ((((List.range 2).map fun j : ℕ => [Key.str "t", Key.int j]).map
        (topItem [.nested "t" [2] c.struct.entries c.struct.order])).zip
        [(⟨.dense c.size 2, l⟩ : SMat V).rowBlock 0 c.size, (⟨.dense c.size 2, l⟩ : SMat V).rowBlock c.size 0])) List.mem_cons_self hstep []
      refine ⟨e, ?_⟩
      show Except.bind (List.foldlM _ _ _) _ = _
      rw [he]
      rfl
    · refine ⟨.runtime, ?_⟩
      obtain ⟨k, rfl⟩ : ∃ k, m = k + 3 := ⟨m - 3, by omega⟩
      rw [vertsplit, if_pos]
      · rfl
      · right; right
        intro hs
        simp only [List.replicate_succ, offsets, List.cons_append, List.pairwise_cons, Sparsity.dense] at hs
        have := hs.2.2.1 c.size (by simp)
        omega

/-- **C50** (MX): an `MX` column has a view, which reads, for every power index, what the view of a `DM` or `SX` column
reads. -/
theorem C50_MX_column [Zero V] [Add V] [Sub V] (s : Struct) (hwf : WFs s.entries s.order) :
    ∃ c, CS.ofStruct s = .ok c ∧ ∀ l : List V, l.length = c.size →
      ∃ v v', c.repeated (.col l) = .ok v ∧ c.repeatedMX (.col l) = .ok v' ∧ v'.cast = .ok (.leaf (.col l)) ∧
        ∀ q, v'.getitem q = v.getitem q := by
  obtain ⟨c, ls, h1, rfl, hb⟩ := ofStruct_built hwf
  refine ⟨c, h1, fun l hl => ?_⟩
  obtain ⟨cr, lr, hbr, hsr, hrep⟩ := CS.repeated_ok (V := V) hb hwf 1
  have hwr : WFs cr.struct.entries cr.struct.order := by rw [hsr]; exact repeated_wf hwf 1
  have hsz : cr.size = c.size := by
    rw [hbr.size_eq hwr, hsr, hb.size_eq hwf]
    simp [countAll, Entry.count]
  have hcol : SMat.col l = ⟨.dense c.size 1, l⟩ := by rw [SMat.col, hl]
  obtain ⟨prio, h2, h3⟩ := buildMap_right hbr hwr (l := l) (by omega)
  have hr := hrep l (by omega)
  rw [← hcol] at hr
  refine ⟨_, { obj := ⟨cr, l, prio⟩, pre := [.str "t"], castmaster := true, ref := some (c.size, 1) }, hr, ?_, ?_, ?_⟩
  · rw [CS.repeatedMX, hr]
    show Except.bind (buildMap cr.struct (.col l)) _ = _
    rw [h2]
    rfl
  · rw [hcol]; rfl
  · intro q
    exact getitem_prio hbr hwr (by omega) h3 _

/-! ## Examples -/

/-- The symbolic struct of `exStruct`: the upper triangle of `P` in the second repetition of `n`. -/
example : ∃ c o, CS.ofStruct exStruct = .ok c ∧ newSymMX c ((List.range 17).map fun i : ℕ => (i : ℤ)) = .ok o ∧
    o.getitem [.str "x", .list [.int 0, .int (-1)], .slice none none none] =
      (⟨c, (List.range 17).map fun i : ℕ => (i : ℤ), []⟩ : Obj ℤ).getitem [.str "x", .list [.int 0, .int (-1)], .slice none none none] := by
  obtain ⟨c, h1, h2⟩ := C54_read (V := ℤ) exStruct exStruct_wf
  obtain ⟨c', _, h1', hs, hb⟩ := ofStruct_built exStruct_wf
  rw [h1] at h1'
  cases h1'
  have hsz : c.size = 17 := by rw [hb.size_eq (by rw [hs]; exact exStruct_wf), hs]; rfl
  obtain ⟨o, h3, _, _, h4⟩ := h2 ((List.range 17).map fun i : ℕ => (i : ℤ)) (by simp [hsz])
  exact ⟨c, o, h1, h3, h4 _⟩

/-- A view of an MX matrix with two columns. -/
example : ∃ c e, CS.ofStruct exStruct = .ok c ∧
    c.repeatedMX (SMat.fill (.dense 17 2) fun p => (p.1 + p.2 : ℤ)) = .error e := by
  obtain ⟨c, h1, h2⟩ := C50_refuted_MX (V := ℤ) exStruct exStruct_wf
  obtain ⟨c', _, h1', hs, hb⟩ := ofStruct_built exStruct_wf
  rw [h1] at h1'
  cases h1'
  have hsz : c.size = 17 := by rw [hb.size_eq (by rw [hs]; exact exStruct_wf), hs]; rfl
  obtain ⟨e, he⟩ := h2 (SMat.fill (.dense 17 2) fun p => (p.1 + p.2 : ℤ)) ⟨Sparsity.dense_canon _ _, by simp [SMat.fill]⟩
    (by rw [hsz]; rfl) (by omega) (by simp [SMat.fill, Sparsity.dense])
  exact ⟨c, e, h1, he⟩

/-- C53/C54: an MX struct over `exStruct` with 17 numbers: after any assignments `s["x"]` reads the first two of the original
ones. -/
example (m : List ℚ) (hm : m.length = 17) : ∃ c o, CS.ofStruct exStruct = .ok c ∧ newMXStruct c (.col m) = .ok o ∧
    ∀ ws, (o.setAll ws).2.getitem [.str "x"] = (⟨c, m, []⟩ : Obj ℚ).getitem [.str "x"] := by
  obtain ⟨c, hc, h⟩ := C53_stale (V := ℚ) exStruct exStruct_wf
  obtain ⟨c', hc', hz, -⟩ := C39_size exStruct exStruct_wf
  rw [hc] at hc'
  cases hc'
  have hz : c.size = 17 := hz
  obtain ⟨o, ho, h2⟩ := h (.col m) (by rw [hz, ← hm]; rfl) rfl
  refine ⟨c, o, hc, ho, fun ws => ?_⟩
  obtain ⟨h3, h4⟩ := h2 ws [.str "x"] _ _ (.leaf (.prim (p := ⟨.dense 2 1, false, none, none⟩) (by simp [exStruct]) .nil))
  have e : (SMat.col m).toColumn = m := SMat.toColumn_dense rfl
  rw [e] at h4
  exact h3.trans h4

end CE.St
