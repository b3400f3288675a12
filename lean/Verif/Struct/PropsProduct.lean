import Verif.Struct.LemProduct

/-! # Views of matrices by two structs (C51) -/

namespace CE.St

variable {V : Type}

/-- The entry `t` of the views. -/
def viewPrim (c d : CS) : Prim := ⟨.dense c.size d.size, false, none, some [some c.shapeFns, some d.shapeFns]⟩

theorem view_wf (c d : CS) (dims : List ℕ) : WFs [.prim "t" dims (viewPrim c d)] [.one "t"] := by
  refine .mk (by simp) (by simp [OrderItem.names, Entry.name]) ?_ ?_
  · intro n' d' p h
    simp only [List.mem_singleton, Entry.prim.injEq] at h
    obtain ⟨-, -, rfl⟩ := h
    exact Sparsity.dense_canon _ _
  · intro n' d' es' o h; simp at h

/-- The struct of the views. -/
theorem viewStruct_ok (c d : CS) (rep : Option (List ℕ)) : ∃ s ls, viewStruct (V := V) c d rep = .ok s ∧ Built s ls ∧
    s.struct = ⟨[.prim "t" (rep.getD []) (viewPrim c d)], [.one "t"]⟩ := by
  obtain ⟨s, ls, h1, h2, h3, h4, -⟩ := ofList_built [.one (.prim "t" (rep.getD []) (viewPrim c d))] none
    (by simp [Item.entries]) (by simp) (by
      intro n' d' p h
      simp only [List.flatMap_cons, List.flatMap_nil, Item.entries, List.append_nil, List.mem_singleton, Entry.prim.injEq] at h
      obtain ⟨-, -, rfl⟩ := h
      exact Sparsity.dense_canon _ _) (by
      intro n' d' es' o h
      simp [Item.entries] at h)
  refine ⟨s, ls, ?_, h4, h2⟩
  rw [viewStruct, ← h1]
  rfl

/-- The positions of the matrix with number `is`. -/
theorem view_pos {c d s : CS} {ls} (hbs : Built s ls) {dims : List ℕ}
    (hs : s.struct = ⟨[.prim "t" dims (viewPrim c d)], [.one "t"]⟩) {is : List ℕ} (his : List.Forall₂ (· < ·) is dims) :
    dictGet s.map (.str "t" :: natKeys is) =
      some ⟨.dense c.size d.size, block (ravel dims is * (c.size * d.size)) (c.size * d.size)⟩ := by
  have hws : WFs s.struct.entries s.struct.order := by rw [hs]; exact view_wf c d dims
  have hks : InDims (natKeys is) dims := by
    rw [natKeys, InDims, List.forall₂_map_left_iff]
    exact his.imp fun _ _ h => ⟨_, h, rfl⟩
  have hl : IsLeaf s.struct.entries (.str "t" :: natKeys is) (viewPrim c d) := by
    rw [hs]; exact .prim (List.mem_singleton_self _) hks
  obtain ⟨A, B, hAB, hwA⟩ := leafList_one (pre := []) (post := []) (es := [.prim "t" dims (viewPrim c d)]) (n := "t")
    (view_wf c d dims) (List.mem_singleton_self _) rfl (is := is) his
  have hp := hbs.leaf_pos hws hl (A := A) (B := B) (by
    rw [hs]
    simp only [List.nil_append] at hAB
    simp only
    rw [hAB, Entry.kids]
    simp)
  have hwA' : wsum s.struct.entries A = ravel dims is * (c.size * d.size) := by
    rw [hs]
    simp only
    rw [hwA]
    simp [Entry.dims, Entry.blockSize, viewPrim, Sparsity.dense, Sparsity.positions_length]
  rw [hp, hwA']
  simp [viewPrim, Sparsity.nnz, Sparsity.dense, Sparsity.positions_length]

/-- The block of the index matrix that two indices select. -/
theorem view_index {c d s : CS} {lc ld} (hc : Built c lc) (hwc : WFs c.struct.entries c.struct.order) (hd : Built d ld)
    (hwd : WFs d.struct.entries d.struct.order) {dims : List ℕ}
    (hs : s.struct = ⟨[.prim "t" dims (viewPrim c d)], [.one "t"]⟩) {ks : CIdx} (hks : InDims ks dims) {off : ℕ}
    (hm : dictGet s.map (.str "t" :: ks) = some ⟨.dense c.size d.size, block off (c.size * d.size)⟩)
    {A B : PIdx (PyFn V)} {la lb : List ℕ} (hA : RowsOf c A la) (hB : RowsOf d B lb) :
    s.i ((Key.str "t" :: ks).map .ofKey ++ [A, B]) = .ok (.leaf (blockIdx off c.size la lb)) ∧
      (∀ i ∈ la, i < c.size) ∧ ∀ j ∈ lb, j < d.size := by
  have hws : WFs s.struct.entries s.struct.order := by rw [hs]; exact view_wf c d dims
  have hl : IsLeaf s.struct.entries (.str "t" :: ks) (viewPrim c d) := by
    rw [hs]; exact .prim (List.mem_singleton_self _) hks
  obtain ⟨⟨A', ha1, ha2⟩, ha3⟩ := hA.select hc hwc (p := viewPrim c d) (fs := [some c.shapeFns, some d.shapeFns]) (k := 0) rfl rfl
  obtain ⟨⟨B', hb1, hb2⟩, hb3⟩ := hB.select hd hwd (p := viewPrim c d) (fs := [some c.shapeFns, some d.shapeFns]) (k := 1) rfl rfl
  refine ⟨?_, ha3, hb3⟩
  rw [s.i_part hws (.leaf hl) [A, B] (by intro h; cases h), imCall, hm]
  simp only [Option.getD_some]
  have hnf : ∀ f, A ≠ .fn f := by rintro f rfl; cases hA
  have hnn : A ≠ .nesteddict := by rintro rfl; cases hA
  have : performExtraIndex applyIdx ⟨.dense c.size d.size, block off (c.size * d.size)⟩ (some (viewPrim c d)) false [A, B] =
      .ok (blockIdx off c.size la lb) := by
    rw [performExtraIndex]
    · rw [ha1]
      simp only [Except.bind]
      rw [hb1]
      exact getRC_block off _ _ ha2 hb2 ha3 hb3
    · exact hnf
    · exact hnn
  rw [this]
  rfl

variable [Zero V] [Add V] [Sub V]

/-- Reading and writing a block of the view. -/
theorem view_access {c d s : CS} {lc ld lss} (hc : Built c lc) (hwc : WFs c.struct.entries c.struct.order) (hd : Built d ld)
    (hwd : WFs d.struct.entries d.struct.order) (hbs : Built s lss) {dims : List ℕ}
    (hs : s.struct = ⟨[.prim "t" dims (viewPrim c d)], [.one "t"]⟩) {ks : CIdx} (hks : InDims ks dims) {off : ℕ}
    (hm : dictGet s.map (.str "t" :: ks) = some ⟨.dense c.size d.size, block off (c.size * d.size)⟩) {master : List V}
    (hlen : master.length = s.size) (hoff : off + c.size * d.size ≤ s.size)
    {A B : PIdx (PyFn V)} {la lb : List ℕ} (hA : RowsOf c A la) (hB : RowsOf d B lb) :
    (⟨s, master, []⟩ : Obj V).getitem ((Key.str "t" :: ks).map .ofKey ++ [A, B]) =
        .ok (.leaf (.fill (.dense la.length lb.length) fun p => master.getD (off + (lb.getD p.2 0 * c.size + la.getD p.1 0)) 0)) ∧
      ∀ pay m, IsValue pay m → m.WF →
        (∀ f, Fits (.dense la.length lb.length) m f → la.Nodup → lb.Nodup → ∃ master',
          (⟨s, master, []⟩ : Obj V).setitem ((Key.str "t" :: ks).map .ofKey ++ [A, B]) pay = (.ok (), ⟨s, master', []⟩) ∧
          master'.length = master.length ∧
          (∀ i < la.length, ∀ j < lb.length, master'.getD (off + (lb.getD j 0 * c.size + la.getD i 0)) 0 = f (i, j)) ∧
          ∀ k, (¬ ∃ i ∈ la, ∃ j ∈ lb, k = off + (j * c.size + i)) → master'[k]? = master[k]?) ∧
        ((∀ f, ¬ Fits (.dense la.length lb.length) m f) →
          (⟨s, master, []⟩ : Obj V).setitem ((Key.str "t" :: ks).map .ofKey ++ [A, B]) pay =
            (.error .generic, ⟨s, master, []⟩)) := by
  have hws : WFs s.struct.entries s.struct.order := by rw [hs]; exact view_wf c d dims
  have hl : IsLeaf s.struct.entries (.str "t" :: ks) (viewPrim c d) := by
    rw [hs]; exact .prim (List.mem_singleton_self _) hks
  obtain ⟨hi, hla, hlb⟩ := view_index hc hwc hd hwd hs hks hm hA hB
  have hcall := imCall_of_i hws (.leaf hl) (by intro h; cases h) hi
  have hns : ∀ p, some (viewPrim c d) = some p → p.symm = false := by
    intro p hp; cases hp; rfl
  have hw := blockIdx_WF off c.size la lb
  have hin : ∀ k ∈ (blockIdx off c.size la lb).data, k < master.length := by
    intro k hk
    obtain ⟨i, hi', j, hj', rfl⟩ := mem_blockIdx.1 hk
    have := lin_lt (hla i hi') (hlb j hj')
    omega
  refine ⟨?_, ?_⟩
  · rw [Obj.getitem_part _ hws (.leaf hl) [A, B] (by intro h; cases h)]
    simp only
    rw [getCall_plain _ _ _ _ _ hns hcall, gather_ok hin]
    show Except.ok _ = _
    congr 2
    rw [blockIdx, SMat.fill, SMat.fill]
    simp
  · intro pay m hp hmw
    refine ⟨?_, ?_⟩
    · intro f hf na nb
      obtain ⟨master', h1, h2, h3, h4⟩ := assign_spec (master := master) hw.2 (blockIdx_nodup hla na nb) hin
        (written_of_fits hw hmw hf)
      refine ⟨master', ?_, h2, ?_, fun k hk => h4 k fun hk' => hk (mem_blockIdx.1 hk')⟩
      · rw [Obj.setitem_part _ hws (.leaf hl) [A, B] (by intro h; cases h)]
        simp only
        rw [setCall_plain _ _ _ _ _ hns hp.toMat hcall, h1]
        rfl
      · intro i hi' j hj'
        rw [gather_ok (by rw [h2]; exact hin)] at h3
        have h5 := congrArg SMat.data (Except.ok.inj h3)
        simp only at h5
        rw [blockIdx, SMat.fill] at h5
        simp only [List.map_map] at h5
        have := List.map_inj_left.1 h5 (i, j) (Sparsity.mem_positions.2 ⟨hi', hj'⟩)
        exact this
    · intro hf
      rw [Obj.setitem_part _ hws (.leaf hl) [A, B] (by intro h; cases h)]
      simp only
      rw [setCall_plain _ _ _ _ _ hns hp.toMat hcall, assign_out (written_none hf)]
      rfl

theorem dense_data {n m : ℕ} {a : SMat V} (hw : a.WF) (hs : a.sp = .dense n m) : a = ⟨.dense n m, a.data⟩ ∧ a.data.length = n * m := by
  refine ⟨by rw [← hs], ?_⟩
  rw [hw.2, hs]
  exact Sparsity.positions_length _ _

/-- The view of a matrix, for the struct of the views. -/
theorem matrixView_ok (s : CS) {a : SMat V} {n m : ℕ} (hs : a.sp = .dense n m) (hz : s.size = n * m) :
    matrixView s a = .ok { obj := ⟨s, a.data, []⟩, pre := [.str "t"], castmaster := true, ref := some (n, m) } := by
  rw [matrixView, if_neg (by simp [hs, Sparsity.isDense, Sparsity.dense, Sparsity.positions_length]), if_neg (by
    rw [hz, hs]; simp [Sparsity.dense])]
  rw [hs]
  rfl

omit [Add V] [Sub V] in
theorem product_unfold (c d : CS) {a : SMat V} (hs : a.sp = .dense c.size d.size) :
    c.product d a = (viewStruct (V := V) c d none).bind fun s => matrixView s a := by
  have h1 : a.sp.rows = c.size := by rw [hs]; rfl
  have h2 : a.sp.cols = d.size := by rw [hs]; rfl
  have h3 : (if a.sp.rows = 1 ∧ a.sp.cols = 1 ∧ c.size ≠ 1 then onesTimes c.size d.size a else a) = a :=
    if_neg fun h => h.2.2 (by omega)
  rw [CS.product]
  simp only [h3]
  rw [if_neg (by simp [h1, h2])]

omit [Add V] [Sub V] in
theorem squared_unfold (c : CS) {a : SMat V} (hs : a.sp = .dense c.size c.size) : c.squared a = c.product c a := by
  have h1 : a.sp.rows = c.size := by rw [hs]; rfl
  have h2 : a.sp.cols = c.size := by rw [hs]; rfl
  have h3 : (if a.sp.rows = 1 ∧ a.sp.cols = 1 ∧ c.size ≠ 1 then onesTimes c.size c.size a else a) = a :=
    if_neg fun h => h.2.2 (by omega)
  rw [CS.squared, product_unfold c c hs]
  simp only [h3]
  rw [if_neg (by simp [h1, h2])]

/-- **C51**, `product`: for a dense matrix `a` with as many rows as the first struct has elements and as many columns as the
second one has, the view casts to `a`; `view[A, B]` is the submatrix of the rows that `A` selects by the first struct and the
columns that `B` selects by the second struct; writing a value that fits changes exactly that block, and the view then is the
view of the changed matrix; writing a value that does not fit raises and changes nothing. -/
theorem C51_product (sc sd : Struct) (hwc : WFs sc.entries sc.order) (hwd : WFs sd.entries sd.order) :
    ∃ c d, CS.ofStruct sc = .ok c ∧ CS.ofStruct sd = .ok d ∧ ∀ a : SMat V, a.WF → a.sp = .dense c.size d.size →
      ∃ view, c.product d a = .ok view ∧ view.cast = .ok (.leaf a) ∧
        ∀ A B la lb, RowsOf c A la → RowsOf d B lb →
          view.getitem [A, B] = .ok (.leaf (.fill (.dense la.length lb.length) fun p =>
            a.at' (la.getD p.1 0, lb.getD p.2 0))) ∧
          ∀ pay m, IsValue pay m → m.WF →
            (∀ f, Fits (.dense la.length lb.length) m f → la.Nodup → lb.Nodup → ∃ view' a',
              view.setitem [A, B] pay = (.ok (), view') ∧ a'.WF ∧ a'.sp = a.sp ∧ c.product d a' = .ok view' ∧
              view'.cast = .ok (.leaf a') ∧
              (∀ i < la.length, ∀ j < lb.length, a'.at' (la.getD i 0, lb.getD j 0) = f (i, j)) ∧
              ∀ i < c.size, ∀ j < d.size, ¬ (i ∈ la ∧ j ∈ lb) → a'.at' (i, j) = a.at' (i, j)) ∧
            ((∀ f, ¬ Fits (.dense la.length lb.length) m f) → view.setitem [A, B] pay = (.error .generic, view)) := by
  obtain ⟨c, lc, h1, rfl, hbc⟩ := ofStruct_built hwc
  obtain ⟨d, ld, h2, rfl, hbd⟩ := ofStruct_built hwd
  refine ⟨c, d, h1, h2, ?_⟩
  intro a haw has
  obtain ⟨s, ls, hv, hbs, hss⟩ := viewStruct_ok (V := V) c d none
  have hws : WFs s.struct.entries s.struct.order := by rw [hss]; exact view_wf c d []
  have hz : s.size = c.size * d.size := by
    rw [hbs.size_eq hws, hss]
    simp [countAll, Entry.count, viewPrim, Sparsity.dense, Sparsity.positions_length]
  obtain ⟨hda, hla⟩ := dense_data haw has
  have hprod : ∀ a' : SMat V, a'.sp = .dense c.size d.size → c.product d a' = .ok
      { obj := ⟨s, a'.data, []⟩, pre := [.str "t"], castmaster := true, ref := some (c.size, d.size) } := by
    intro a' h
    rw [product_unfold c d h, hv]
    exact matrixView_ok s h hz
  have hcast : ∀ a' : SMat V, a'.sp = .dense c.size d.size → Prefixer.cast
      { obj := ⟨s, a'.data, []⟩, pre := [.str "t"], castmaster := true, ref := some (c.size, d.size) } =
        .ok (.leaf a') := by
    intro a' h
    rw [Prefixer.cast, if_pos rfl]
    simp only
    rw [← h]
  refine ⟨_, hprod a has, hcast a has, ?_⟩
  intro A B la lb hA hB
  have hm : dictGet s.map (.str "t" :: []) = some ⟨.dense c.size d.size, block 0 (c.size * d.size)⟩ := by
    have := view_pos hbs hss (is := []) .nil
    simpa [ravel, natKeys] using this
  obtain ⟨hr, hw⟩ := view_access (V := V) hbc hwc hbd hwd hbs hss (ks := []) .nil hm (master := a.data) (by rw [hla, hz])
    (by rw [hz]; omega) hA hB
  obtain ⟨-, hca, hdb⟩ := view_index hbc hwc hbd hwd hss (ks := []) .nil hm hA hB
  have hat : ∀ l : List V, l.length = c.size * d.size → ∀ i < c.size, ∀ j < d.size,
      (⟨.dense c.size d.size, l⟩ : SMat V).at' (i, j) = l.getD (0 + (j * c.size + i)) 0 := by
    intro l hl i hi j hj
    rw [SMat.dense_at' hl hi hj, Nat.zero_add]
  refine ⟨?_, ?_⟩
  · refine hr.trans ?_
    congr 2
    rw [SMat.fill, SMat.fill]
    congr 1
    apply List.map_congr_left
    intro p hp
    have hp := Sparsity.mem_positions.1 hp
    rw [hda, hat _ hla _ (hca _ (getD_mem hp.1)) _ (hdb _ (getD_mem hp.2))]
  · intro pay m hp hmw
    refine ⟨?_, ?_⟩
    · intro f hf na nb
      obtain ⟨master', h3, h4, h5, h6⟩ := (hw pay m hp hmw).1 f hf na nb
      have hl' : master'.length = c.size * d.size := by rw [h4, hla]
      refine ⟨{ obj := ⟨s, master', []⟩, pre := [.str "t"], castmaster := true, ref := some (c.size, d.size) },
        ⟨.dense c.size d.size, master'⟩, ?_, ⟨Sparsity.dense_canon _ _, ?_⟩, has.symm, hprod ⟨_, master'⟩ rfl, hcast ⟨_, master'⟩ rfl, ?_, ?_⟩
      · have h3' : (⟨s, a.data, []⟩ : Obj V).setitem ([.str "t"] ++ [A, B]) pay = (.ok (), ⟨s, master', []⟩) := h3
        rw [Prefixer.setitem]
        simp only [h3']
      · simp only [hl', Sparsity.dense, Sparsity.positions_length]
      · intro i hi j hj
        rw [hat _ hl' _ (hca _ (getD_mem hi)) _ (hdb _ (getD_mem hj))]
        exact h5 i hi j hj
      · intro i hi j hj hn
        rw [hda, hat _ hl' i hi j hj, hat _ hla i hi j hj, List.getD_eq_getElem?_getD, List.getD_eq_getElem?_getD, h6]
        rintro ⟨i', hi', j', hj', e⟩
        have := lin_inj hi (hca _ hi') (by omega : j * c.size + i = j' * c.size + i')
        exact hn ⟨this.1 ▸ hi', this.2 ▸ hj'⟩
    · intro hf
      have h3' : (⟨s, a.data, []⟩ : Obj V).setitem ([.str "t"] ++ [A, B]) pay = (.error .generic, ⟨s, a.data, []⟩) :=
        (hw pay m hp hmw).2 hf
      rw [Prefixer.setitem]
      simp only [h3']

/-- **C51**, `squared`: as `product` of a struct with itself. -/
theorem C51_squared (c : CS) (a : SMat V) (hs : a.sp = .dense c.size c.size) : c.squared a = c.product c a :=
  squared_unfold c hs

/-- **C51**, `squared_repeated`: for a dense matrix of `N` square blocks side by side, the view casts to the matrix;
`view[k, A, B]` is the submatrix of block `k` for the rows of `A` and the columns of `B`; writing a value that fits changes
exactly this part of block `k`. -/
theorem C51_squared_repeated (sc : Struct) (hwc : WFs sc.entries sc.order) :
    ∃ c, CS.ofStruct sc = .ok c ∧ (0 < c.size → ∀ (N : ℕ) (a : SMat V), a.WF → a.sp = .dense c.size (c.size * N) →
      ∃ view, c.squaredRepeated a = .ok view ∧ view.cast = .ok (.leaf a) ∧
        ∀ k < N, ∀ A B la lb, RowsOf c A la → RowsOf c B lb →
          view.getitem [.int k, A, B] = .ok (.leaf (.fill (.dense la.length lb.length) fun p =>
            a.at' (la.getD p.1 0, k * c.size + lb.getD p.2 0))) ∧
          ∀ pay m, IsValue pay m → m.WF →
            (∀ f, Fits (.dense la.length lb.length) m f → la.Nodup → lb.Nodup → ∃ view' a',
              view.setitem [.int k, A, B] pay = (.ok (), view') ∧ a'.WF ∧ a'.sp = a.sp ∧ c.squaredRepeated a' = .ok view' ∧
              view'.cast = .ok (.leaf a') ∧
              (∀ i < la.length, ∀ j < lb.length, a'.at' (la.getD i 0, k * c.size + lb.getD j 0) = f (i, j)) ∧
              ∀ i < c.size, ∀ j < c.size * N, ¬ (i ∈ la ∧ ∃ j' ∈ lb, j = k * c.size + j') → a'.at' (i, j) = a.at' (i, j)) ∧
            ((∀ f, ¬ Fits (.dense la.length lb.length) m f) → view.setitem [.int k, A, B] pay = (.error .generic, view))) := by
  obtain ⟨c, lc, h1, rfl, hbc⟩ := ofStruct_built hwc
  refine ⟨c, h1, ?_⟩
  intro hpos N a haw has
  obtain ⟨s, ls, hv, hbs, hss⟩ := viewStruct_ok (V := V) c c (some [N])
  have hws : WFs s.struct.entries s.struct.order := by rw [hss]; exact view_wf c c [N]
  have hz : s.size = c.size * (c.size * N) := by
    rw [hbs.size_eq hws, hss]
    simp [countAll, Entry.count, viewPrim, Sparsity.dense, Sparsity.positions_length]
    ring
  obtain ⟨hda, hla⟩ := dense_data haw has
  have hprod : ∀ a' : SMat V, a'.sp = .dense c.size (c.size * N) → c.squaredRepeated a' = .ok
      { obj := ⟨s, a'.data, []⟩, pre := [.str "t"], castmaster := true, ref := some (c.size, c.size * N) } := by
    intro a' h
    have h2 : a'.sp.rows = c.size := by rw [h]; rfl
    have h3 : a'.sp.cols = c.size * N := by rw [h]; rfl
    rw [CS.squaredRepeated, if_neg (by simpa using h2), if_neg (by omega), if_neg (by simp [h3]), h3,
      Nat.mul_div_cancel_left _ hpos, hv]
    exact matrixView_ok s h hz
  have hcast : ∀ a' : SMat V, a'.sp = .dense c.size (c.size * N) → Prefixer.cast
      { obj := ⟨s, a'.data, []⟩, pre := [.str "t"], castmaster := true, ref := some (c.size, c.size * N) } =
        .ok (.leaf a') := by
    intro a' h
    rw [Prefixer.cast, if_pos rfl]
    simp only
    rw [← h]
  refine ⟨_, hprod a has, hcast a has, ?_⟩
  intro k hk A B la lb hA hB
  have hm : dictGet s.map (.str "t" :: natKeys [k]) = some ⟨.dense c.size c.size, block (k * (c.size * c.size)) (c.size * c.size)⟩ := by
    have := view_pos hbs hss (is := [k]) (.cons hk .nil)
    simpa [ravel] using this
  have hks : InDims (natKeys [k]) [N] := .cons ⟨k, hk, rfl⟩ .nil
  have hoff : k * (c.size * c.size) + c.size * c.size ≤ c.size * (c.size * N) := by
    calc k * (c.size * c.size) + c.size * c.size = (k + 1) * (c.size * c.size) := by ring
      _ ≤ N * (c.size * c.size) := Nat.mul_le_mul_right _ hk
      _ = c.size * (c.size * N) := by ring
  obtain ⟨hr, hw⟩ := view_access (V := V) hbc hwc hbc hwc hbs hss hks hm (master := a.data) (by rw [hla, hz])
    (by rw [hz]; exact hoff) hA hB
  obtain ⟨-, hca, hdb⟩ := view_index hbc hwc hbc hwc hss hks hm hA hB
  have hcol : ∀ j < c.size, k * c.size + j < c.size * N := fun j hj => by
    have := lin_lt hj hk
    omega
  have hat : ∀ l : List V, l.length = c.size * (c.size * N) → ∀ i < c.size, ∀ j < c.size,
      (⟨.dense c.size (c.size * N), l⟩ : SMat V).at' (i, k * c.size + j) =
        l.getD (k * (c.size * c.size) + (j * c.size + i)) 0 := by
    intro l hl i hi j hj
    rw [SMat.dense_at' hl hi (hcol j hj)]
    congr 1
    ring
  refine ⟨?_, ?_⟩
  · refine hr.trans ?_
    congr 2
    rw [SMat.fill, SMat.fill]
    congr 1
    apply List.map_congr_left
    intro p hp
    have hp := Sparsity.mem_positions.1 hp
    rw [hda, hat _ hla _ (hca _ (getD_mem hp.1)) _ (hdb _ (getD_mem hp.2))]
  · intro pay m hp hmw
    refine ⟨?_, ?_⟩
    · intro f hf na nb
      obtain ⟨master', h3, h4, h5, h6⟩ := (hw pay m hp hmw).1 f hf na nb
      have hl' : master'.length = c.size * (c.size * N) := by rw [h4, hla]
      refine ⟨{ obj := ⟨s, master', []⟩, pre := [.str "t"], castmaster := true, ref := some (c.size, c.size * N) },
        ⟨.dense c.size (c.size * N), master'⟩, ?_, ⟨Sparsity.dense_canon _ _, ?_⟩, has.symm, hprod ⟨_, master'⟩ rfl,
        hcast ⟨_, master'⟩ rfl, ?_, ?_⟩
      · have h3' : (⟨s, a.data, []⟩ : Obj V).setitem ([.str "t"] ++ [.int k, A, B]) pay = (.ok (), ⟨s, master', []⟩) := h3
        rw [Prefixer.setitem]
        simp only [h3']
      · simp only [hl', Sparsity.dense, Sparsity.positions_length]
      · intro i hi j hj
        rw [hat _ hl' _ (hca _ (getD_mem hi)) _ (hdb _ (getD_mem hj))]
        exact h5 i hi j hj
      · intro i hi j hj hn
        rw [hda, SMat.dense_at' hl' hi hj, SMat.dense_at' hla hi hj, List.getD_eq_getElem?_getD, List.getD_eq_getElem?_getD, h6]
        rintro ⟨i', hi', j', hj', e⟩
        have := lin_inj hi (hca _ hi') (show j * c.size + i = (k * c.size + j') * c.size + i' by rw [e]; ring)
        exact hn ⟨this.1 ▸ hi', j', hj', this.2⟩
    · intro hf
      have h3' : (⟨s, a.data, []⟩ : Obj V).setitem ([.str "t"] ++ [.int k, A, B]) pay = (.error .generic, ⟨s, a.data, []⟩) :=
        (hw pay m hp hmw).2 hf
      rw [Prefixer.setitem]
      simp only [h3']

omit [Zero V] [Add V] [Sub V] in
/-- **C51**, what keys select: the name of an entry (without repeats) and `indexf[...]` of any element or nested struct that is
dense, and `index[...]` of dense vectors, select the rows with the positions `s.i[...]` of this part, which are distinct. -/
theorem C51_keys (s : Struct) (hwf : WFs s.entries s.order) (a : CIdx) (e : Option Prim) (sp : Sparsity)
    (ha : IsPart s.entries a e sp) (hd : sp.nz.length = sp.rows * sp.cols) (hne : 0 < sp.nz.length) :
    ∃ c i, CS.ofStruct s = .ok c ∧ c.i (V := V) (a.map .ofKey) = .ok (.leaf i) ∧ i.data.Nodup ∧ i.data.length = sp.nz.length ∧
      RowsOf c (V := V) (.indexf a) i.data ∧ (∀ n, a = [.str n] → RowsOf c (V := V) (.str n) i.data) ∧
      (sp.rows = 1 ∨ sp.cols = 1 → RowsOf c (V := V) (.index a) i.data) := by
  obtain ⟨c, ls, h1, rfl, hb⟩ := ofStruct_built hwf
  obtain ⟨i, hg, hw, hnd, hin, rfl⟩ := hb.part hwf ha
  have hi : ∀ V, c.i (V := V) (a.map .ofKey ++ []) = .ok (.leaf i) := by
    intro V
    rw [c.i_part hwf ha [] (fun _ => rfl), imCall_part e hg]
    rfl
  simp only [List.append_nil] at hi
  have hf : c.f (a.map .ofKey) = .ok (i.data.map fun k : ℕ => (k : ℤ)) := by
    have := goStruct_part_extra (flatDisp (V := Empty) c.map) hwf ha c.struct.keys [] (fun _ => rfl) false [] .none
    rw [List.nil_append, List.append_nil] at this
    rw [CS.f, Struct.traverse, this, callLeaf]
    simp only [flatDisp, flatCall, ex, M.lift, M.bind, M.pure, hg]
    rw [show (if [].isEmpty = true then none else some ([] : List (PIdx Empty))).getD [] = [] from rfl, performExtraIndex]
    simp only [Except.bind]
    rw [if_pos (by simpa [Sparsity.isDense] using hd)]
    rfl
  have hn : i.data ≠ [] := by
    intro h
    have := hw.2
    rw [h, List.length_nil] at this
    omega
  refine ⟨c, i, h1, hi V, hnd, hw.2, .indexf hf hn, ?_, fun hv => .index (hi Empty) (by simpa [Sparsity.isDense] using hd) hv hin⟩
  rintro n rfl
  exact .key hf hn

omit [Add V] [Sub V] in
/-- **C51**: a matrix of the wrong shape (and no scalar to be broadcast) raises, so does a matrix that is not dense. -/
theorem C51_wrong (c d : CS) (a : SMat V) (hb : ¬ (a.sp.rows = 1 ∧ a.sp.cols = 1)) :
    (¬ (a.sp.rows = c.size ∧ a.sp.cols = d.size) → c.product d a = .error .generic) ∧
    (¬ (a.sp.rows = c.size ∧ a.sp.cols = c.size) → c.squared a = .error .generic) ∧
    (a.sp.rows = c.size → a.sp.cols = d.size → a.sp.nz.length ≠ a.sp.rows * a.sp.cols →
      c.product d a = .error .assertion) ∧
    (a.sp.rows = c.size → a.sp.cols = c.size → a.sp.nz.length ≠ a.sp.rows * a.sp.cols →
      c.squared a = .error .assertion) := by
  have h3 : ∀ b : SMat V, (if a.sp.rows = 1 ∧ a.sp.cols = 1 ∧ c.size ≠ 1 then b else a) = a :=
    fun b => if_neg fun h => hb ⟨h.1, h.2.1⟩
  refine ⟨?_, ?_, ?_, ?_⟩
  · intro h
    rw [CS.product]
    simp only [h3]
    rw [if_pos (by tauto)]
  · intro h
    rw [CS.squared]
    simp only [h3]
    rw [if_pos (by omega)]
  · intro h4 h5 h6
    obtain ⟨s, ls, hv, -⟩ := viewStruct_ok (V := V) c d none
    rw [CS.product]
    simp only [h3]
    rw [if_neg (by tauto), hv]
    simp only [Except.bind]
    rw [matrixView, if_pos (by simpa [Sparsity.isDense] using h6)]
  · intro h4 h5 h6
    obtain ⟨s, ls, hv, -⟩ := viewStruct_ok (V := V) c c none
    rw [CS.squared]
    simp only [h3]
    rw [if_neg (by omega), hv]
    simp only [Except.bind]
    rw [matrixView, if_pos (by simpa [Sparsity.isDense] using h6)]

omit [Add V] [Sub V] in
theorem onesTimes_scalar (n m : ℕ) (v : V) : onesTimes n m (.scalar v) = .fill (.dense n m) fun _ => v := rfl

omit [Add V] [Sub V] in
/-- **C51**, scalars: `squared` broadcasts a scalar to all elements. -/
theorem C51_squared_scalar (c : CS) (v : V) : c.squared (.scalar v) = c.squared (.fill (.dense c.size c.size) fun _ => v) := by
  rw [squared_unfold c (a := .fill (.dense c.size c.size) fun _ => v) rfl, product_unfold c c rfl, CS.squared]
  by_cases h : c.size = 1
  · have h3 : (if (SMat.scalar v).sp.rows = 1 ∧ (SMat.scalar v).sp.cols = 1 ∧ c.size ≠ 1 then
        onesTimes c.size c.size (.scalar v) else .scalar v) = SMat.fill (.dense c.size c.size) fun _ => v := by
      rw [if_neg (by simp [h]), h]
      rfl
    simp only [h3]
    rw [if_neg (by simp [SMat.fill, Sparsity.dense])]
  · have h3 : (if (SMat.scalar v).sp.rows = 1 ∧ (SMat.scalar v).sp.cols = 1 ∧ c.size ≠ 1 then
        onesTimes c.size c.size (.scalar v) else .scalar v) = SMat.fill (.dense c.size c.size) fun _ => v :=
      (if_pos ⟨rfl, rfl, h⟩).trans (onesTimes_scalar _ _ v)
    simp only [h3]
    rw [if_neg (by simp [SMat.fill, Sparsity.dense])]

omit [Add V] [Sub V] in
/-- **C51**, scalars: `product` broadcasts a scalar to all elements, if the first struct does not have size 1 or the second one
does; otherwise (a row) it raises. -/
theorem C51_product_scalar_partial (c d : CS) (v : V) :
    (c.size ≠ 1 ∨ d.size = 1 → c.product d (.scalar v) = c.product d (.fill (.dense c.size d.size) fun _ => v)) ∧
    (c.size = 1 → d.size ≠ 1 → c.product d (.scalar v) = .error .generic) := by
  refine ⟨?_, ?_⟩
  · intro hsz
    rw [product_unfold c d (a := .fill (.dense c.size d.size) fun _ => v) rfl, CS.product]
    by_cases h : c.size = 1
    · have hd := hsz.resolve_left (by simpa using h)
      have h3 : (if (SMat.scalar v).sp.rows = 1 ∧ (SMat.scalar v).sp.cols = 1 ∧ c.size ≠ 1 then
          onesTimes c.size d.size (.scalar v) else .scalar v) = SMat.fill (.dense c.size d.size) fun _ => v := by
        rw [if_neg (by simp [h]), h, hd]
        rfl
      simp only [h3]
      rw [if_neg (by simp [SMat.fill, Sparsity.dense])]
    · have h3 : (if (SMat.scalar v).sp.rows = 1 ∧ (SMat.scalar v).sp.cols = 1 ∧ c.size ≠ 1 then
          onesTimes c.size d.size (.scalar v) else .scalar v) = SMat.fill (.dense c.size d.size) fun _ => v :=
        (if_pos ⟨rfl, rfl, h⟩).trans (onesTimes_scalar _ _ v)
      simp only [h3]
      rw [if_neg (by simp [SMat.fill, Sparsity.dense])]
  · intro h hd
    rw [CS.product]
    have h3 : (if (SMat.scalar v).sp.rows = 1 ∧ (SMat.scalar v).sp.cols = 1 ∧ c.size ≠ 1 then
        onesTimes c.size d.size (.scalar v) else .scalar v) = SMat.scalar v := if_neg (by simp [h])
    simp only [h3]
    rw [if_pos fun h => hd h.1.symm]

/-- **C51** (counterexample): the default argument 0 of `product` raises for a struct of size 1 and a struct of size 2. -/
theorem C51_refuted : ∃ c d, CS.ofStruct (oneStruct ⟨.dense 1 1, false, none, none⟩) = .ok c ∧
    CS.ofStruct (oneStruct ⟨.dense 2 1, false, none, none⟩) = .ok d ∧ c.product d (.scalar (0 : ℤ)) = .error .generic := by
  obtain ⟨c, h1, hz1, -⟩ := C39_size (oneStruct ⟨.dense 1 1, false, none, none⟩) (oneStruct_wf (Sparsity.dense_canon _ _))
  obtain ⟨d, h2, hz2, -⟩ := C39_size (oneStruct ⟨.dense 2 1, false, none, none⟩) (oneStruct_wf (Sparsity.dense_canon _ _))
  refine ⟨c, d, h1, h2, (C51_product_scalar_partial c d (0 : ℤ)).2 ?_ ?_⟩
  · rw [hz1]; decide
  · rw [hz2]; decide

/-- A block of the product of `exStruct` with itself: the rows of the entry `x` and the columns of the second repetition of
`b`. -/
example : ∃ c view, ∃ la lb : List ℕ, CS.ofStruct exStruct = .ok c ∧
    c.product c (SMat.fill (.dense 17 17) fun p => (100 * p.1 + p.2 : ℤ)) = .ok view ∧ la.length = 2 ∧ lb.length = 2 ∧
    la.Nodup ∧ lb.Nodup ∧ view.getitem [.str "x", .indexf [.str "b", .int 1]] =
      .ok (.leaf (.fill (.dense 2 2) fun p => (SMat.fill (.dense 17 17) fun p => (100 * p.1 + p.2 : ℤ)).at'
        (la.getD p.1 0, lb.getD p.2 0))) ∧
    view.getitem [.index [.str "b", .int 1], .index [.str "x"]] =
      .ok (.leaf (.fill (.dense 2 2) fun p => (SMat.fill (.dense 17 17) fun p => (100 * p.1 + p.2 : ℤ)).at'
        (lb.getD p.1 0, la.getD p.2 0))) := by
  have hx : IsPart exStruct.entries [.str "x"] (some ⟨.dense 2 1, false, none, none⟩) (.dense 2 1) :=
    .leaf (p := ⟨.dense 2 1, false, none, none⟩) (.prim (dims := []) (by simp [exStruct]) .nil)
  have hy : IsPart exStruct.entries [.str "b", .int 1] (some ⟨.dense 2 1, false, none, none⟩) (.dense 2 1) :=
    .leaf (p := ⟨.dense 2 1, false, none, none⟩) (.prim (dims := [2]) (by simp [exStruct]) (.cons ⟨1, by omega, rfl⟩ .nil))
  obtain ⟨c, i, h1, -, ni, li, -, ri, mi⟩ := C51_keys (V := ℤ) exStruct exStruct_wf _ _ _ hx rfl (by decide)
  obtain ⟨c1, j, h2, -, nj, lj, rj, -, mj⟩ := C51_keys (V := ℤ) exStruct exStruct_wf _ _ _ hy rfl (by decide)
  rw [h1] at h2
  cases h2
  obtain ⟨c2, h2, hs, _⟩ := C39_size exStruct exStruct_wf
  rw [h1] at h2
  cases h2
  have hs : c.size = 17 := by rw [hs]; decide
  obtain ⟨c3, c4, h3, h4, h5⟩ := C51_product (V := ℤ) exStruct exStruct exStruct_wf exStruct_wf
  rw [h1] at h3 h4
  cases h3
  cases h4
  obtain ⟨view, h6, -, h7⟩ := h5 (SMat.fill (.dense 17 17) fun p => (100 * p.1 + p.2 : ℤ))
    (SMat.fill_WF (Sparsity.dense_canon _ _) _) (by rw [hs]; rfl)
  have li : i.data.length = 2 := li
  have lj : j.data.length = 2 := lj
  refine ⟨c, view, i.data, j.data, h1, h6, li, lj, ni, nj, ?_, ?_⟩
  · have := (h7 _ _ _ _ (ri "x" rfl) rj).1
    rw [li, lj] at this
    exact this
  · have := (h7 _ _ _ _ (mj (.inr rfl)) (mi (.inr rfl))).1
    rw [li, lj] at this
    exact this

/-- Matrices that do not fit, and scalars, for the product of `exStruct` (17 elements) with itself. -/
example : ∃ c, CS.ofStruct exStruct = .ok c ∧
    c.product c (SMat.fill (.dense 17 16) fun p => (100 * p.1 + p.2 : ℤ)) = .error .generic ∧
    c.squared (SMat.fill (.upper 17) fun p => (100 * p.1 + p.2 : ℤ)) = .error .assertion ∧
    c.product c (.scalar (3 : ℤ)) = c.product c (.fill (.dense 17 17) fun _ => 3) ∧
    c.squared (.scalar (3 : ℤ)) = c.squared (.fill (.dense 17 17) fun _ => 3) ∧
    c.squared (SMat.fill (.dense 17 17) fun p => (100 * p.1 + p.2 : ℤ)) =
      c.product c (SMat.fill (.dense 17 17) fun p => (100 * p.1 + p.2 : ℤ)) := by
  obtain ⟨c, h1, hs, _⟩ := C39_size exStruct exStruct_wf
  have hs : c.size = 17 := by rw [hs]; decide
  refine ⟨c, h1, (C51_wrong c c _ (by decide)).1 (by rw [hs]; decide), (C51_wrong c c _ (by decide)).2.2.2 (by rw [hs]; rfl) (by rw [hs]; rfl)
    (by decide +kernel), ?_, ?_, C51_squared c _ (by rw [hs]; rfl)⟩
  · have := (C51_product_scalar_partial c c (3 : ℤ)).1 (.inl (by omega))
    rw [hs] at this
    exact this
  · have := C51_squared_scalar c (3 : ℤ)
    rw [hs] at this
    exact this

end CE.St
