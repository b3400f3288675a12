import Verif.Struct.ViewMX
import Verif.Struct.PropsProduct
import Verif.Struct.PropsPrio

/-! # Views of `MX` matrices by two structs (C89) -/

namespace CE.St

variable {V : Type} [Zero V]

/-- The parts of the struct of the views. -/
theorem view_part {c d : CS} {dims : List ℕ} {a : CIdx} {e : Option Prim} {sp : Sparsity}
    (h : IsPart [.prim "t" dims (viewPrim c d)] a e sp) :
    ∃ ks, a = .str "t" :: ks ∧ InDims ks dims ∧ e = some (viewPrim c d) ∧ sp = .dense c.size d.size := by
  cases h with
  | leaf h =>
    cases h with
    | prim h hk =>
      simp only [List.mem_singleton, Entry.prim.injEq] at h
      obtain ⟨rfl, rfl, rfl⟩ := h
      exact ⟨_, rfl, hk, rfl, rfl⟩
    | nested h => simp at h
  | node h =>
    cases h with
    | top h => simp at h
    | nested h => simp at h

theorem fill_dense {n m : ℕ} {l : List V} (h : l.length = n * m) :
    SMat.fill (.dense n m) (fun p => l.getD (p.2 * n + (0 + p.1)) 0) = (⟨.dense n m, l⟩ : SMat V) := by
  rw [SMat.fill]
  congr 1
  show (Sparsity.positions n m).map _ = l
  rw [Sparsity.positions_eq, List.map_map]
  apply List.ext_getElem
  · simp [h]
  · intro k h1 h2
    have e : k / n * n + (0 + k % n) = k := by
      rw [Nat.zero_add, Nat.mul_comm]
      exact Nat.div_add_mod k n
    simp only [List.getElem_map, List.getElem_range, Function.comp, e]
    rw [List.getD_eq_getElem?_getD, List.getElem?_eq_getElem h2, Option.getD_some]

/-- The elements of the block of all positions. -/
theorem map_block {l : List V} {n : ℕ} (h : l.length = n) : (block 0 n).map (fun k => l.getD k 0) = l := by
  apply List.ext_getElem
  · simp [block, h]
  · intro k h1 h2
    simp only [block, List.getElem_map, List.getElem_range]
    rw [Nat.zero_add]
    rw [List.getD_eq_getElem?_getD, List.getElem?_eq_getElem h2, Option.getD_some]

/-- The vertsplit map of a view with one block has the matrix itself as its only element. -/
theorem buildMap_view {c d : CS} {dims : List ℕ} {t : CIdx}
    (ht : tops [.prim "t" dims (viewPrim c d)] [.one "t"] = [t]) (hti : ∃ ks, t = .str "t" :: ks) {l : List V}
    (hl : l.length = c.size * d.size) :
    buildMap ⟨[.prim "t" dims (viewPrim c d)], [.one "t"]⟩ (⟨.dense c.size d.size, l⟩ : SMat V) =
      .ok [(t, ⟨.dense c.size d.size, l⟩)] := by
  obtain ⟨ks, rfl⟩ := hti
  rw [buildMap, buildGo_eq (view_wf c d dims), ht]
  have hv : vertsplit (⟨.dense c.size d.size, l⟩ : SMat V)
      (offsets 0 (([Key.str "t" :: ks] : List CIdx).map (topSize [.prim "t" dims (viewPrim c d)])) ++ [(Sparsity.dense c.size d.size).rows]) =
      .ok [⟨.dense c.size d.size, l⟩] := by
    rw [vertsplit, if_neg (by simp [offsets])]
    simp only [List.map_cons, List.map_nil, offsets, List.cons_append, List.nil_append, List.tail_cons, List.zipWith_cons_cons,
      List.zipWith_nil_right]
    have hr : (Sparsity.dense c.size d.size).rows - 0 = c.size := rfl
    rw [hr, SMat.rowBlock_dense hl (by omega), fill_dense hl]
  show Except.bind _ _ = _
  rw [hv]
  have hitem := topItem_eq (V := V) (es := [.prim "t" dims (viewPrim c d)]) (by simp) (List.mem_singleton_self _) ks
  simp only [Entry.name] at hitem
  simp only [Except.bind, List.map_cons, List.map_nil, List.zip_cons_cons, List.zip_nil_right, hitem]
  show Except.bind (buildStep [] [] _) _ = _
  rw [buildStep]
  simp only [Entry.builder, Entry.topSp', viewPrim, asPart, List.nil_append]
  rfl

/-- Writing several times through a prefix, until a write raises. -/
def Prefixer.setAll (p : Prefixer V) : List (List (PIdx (PyFn V)) × Pay V) → Except PyErr Unit × Prefixer V
  | [] => (.ok (), p)
  | (q, v) :: l => match p.setitem q v with
    | (.ok _, p') => p'.setAll l
    | (.error e, p') => (.error e, p')

/-- What a write does depends on the structure and the elements, and the vertsplit map stays as it is. -/
theorem setitem_prio (s : CS) (l : List V) (pi : List (PIdx (PyFn V))) (v : Pay V) : ∃ r l',
    ∀ pr, (⟨s, l, pr⟩ : Obj V).setitem pi v = (r, ⟨s, l', pr⟩) := by
  unfold Obj.setitem
  simp only
  rcases s.struct.traverse (setDisp s.map) pi v l with ⟨_ | _, l'⟩
  · exact ⟨_, l', fun pr => rfl⟩
  · exact ⟨_, l', fun pr => rfl⟩

theorem Prefixer.setAll_prio (s : CS) (ref : Option (ℕ × ℕ)) (pre : List (PIdx (PyFn V)))
    (ws : List (List (PIdx (PyFn V)) × Pay V)) (l : List V) : ∃ r l',
      ∀ pr, (⟨⟨s, l, pr⟩, pre, true, ref⟩ : Prefixer V).setAll ws = (r, ⟨⟨s, l', pr⟩, pre, true, ref⟩) := by
  induction ws generalizing l with
  | nil => exact ⟨_, _, fun pr => rfl⟩
  | cons w ws ih =>
    obtain ⟨q, v⟩ := w
    obtain ⟨r, l1, h1⟩ := setitem_prio s l (pre ++ q) v
    cases r with
    | error e =>
      refine ⟨.error e, l1, fun pr => ?_⟩
      simp only [Prefixer.setAll, Prefixer.setitem, h1]
    | ok u =>
      obtain ⟨r, l2, h2⟩ := ih l1
      refine ⟨r, l2, fun pr => ?_⟩
      simp only [Prefixer.setAll, Prefixer.setitem, h1]
      exact h2 pr

/-- What the tables of a view with one block say. -/
theorem view_MX [Add V] [Sub V] {c d s : CS} {ls} (hbs : Built s ls) {dims is : List ℕ}
    (hs : s.struct = ⟨[.prim "t" dims (viewPrim c d)], [.one "t"]⟩)
    (ht : tops [.prim "t" dims (viewPrim c d)] [.one "t"] = [.str "t" :: natKeys is]) (his : List.Forall₂ (· < ·) is dims)
    (hr : ravel dims is = 0) (hu : ∀ ks, InDims ks dims → ks = natKeys is) {l : List V} (hl : l.length = c.size * d.size)
    (hz : s.size = c.size * d.size) :
    let v : Prefixer V := ⟨⟨s, l, []⟩, [.str "t"], true, some (c.size, d.size)⟩
    ∃ v', v.withPrio = .ok v' ∧ v'.cast = .ok (.leaf ⟨.dense c.size d.size, l⟩) ∧ (∀ q, v'.getitem q = v.getitem q) ∧
      ∀ ws, (v'.setAll ws).1 = (v.setAll ws).1 ∧ (v'.setAll ws).2.cast = (v.setAll ws).2.cast ∧
        (v'.setAll ws).2.getitem ((natKeys is).map .ofKey) = .ok (.leaf ⟨.dense c.size d.size, l⟩) ∧
        ∀ x, x ≠ [] → (v'.setAll ws).2.getitem ((natKeys is).map .ofKey ++ x) =
          (v.setAll ws).2.getitem ((natKeys is).map .ofKey ++ x) := by
  have hws : WFs s.struct.entries s.struct.order := by rw [hs]; exact view_wf c d dims
  have hks : InDims (natKeys is) dims := by
    rw [natKeys, InDims, List.forall₂_map_left_iff]
    exact his.imp fun _ _ h => ⟨_, h, rfl⟩
  have hlf : IsPart s.struct.entries (.str "t" :: natKeys is) (some (viewPrim c d)) (.dense c.size d.size) := by
    rw [hs]; exact .leaf (p := viewPrim c d) (.prim (List.mem_singleton_self _) hks)
  have hm := view_pos hbs hs his
  rw [hr, Nat.zero_mul] at hm
  have hpr : ∀ (a : CIdx) (i : IMat), dictGet s.map a = some i →
      dictGet [((.str "t" :: natKeys is : CIdx), (⟨.dense c.size d.size, l⟩ : SMat V))] a = some (partVal l i) := by
    intro a i hi
    obtain ⟨e, sp, hp⟩ := hbs.get_part hws hi
    rw [hs] at hp
    obtain ⟨ks, rfl, hk, -, -⟩ := view_part hp
    obtain rfl := hu ks hk
    rw [hm] at hi
    cases hi
    rw [partVal, map_block hl]
    simp [dictGet]
  have hd : dictGet [((.str "t" :: natKeys is : CIdx), (⟨.dense c.size d.size, l⟩ : SMat V))] (.str "t" :: natKeys is) =
      some ⟨.dense c.size d.size, l⟩ := by simp [dictGet]
  have hb := buildMap_view (V := V) ht ⟨_, rfl⟩ hl
  refine ⟨⟨⟨s, l, [(.str "t" :: natKeys is, ⟨.dense c.size d.size, l⟩)]⟩, [.str "t"], true, some (c.size, d.size)⟩, ?_, rfl, ?_, ?_⟩
  · rw [Prefixer.withPrio]
    simp only [hs]
    rw [hb]
    rfl
  · intro q
    exact getitem_prio hbs hws (by rw [hl, hz]) hpr _
  · intro ws
    obtain ⟨r, l', h⟩ := Prefixer.setAll_prio s (some (c.size, d.size)) [.str "t"] ws l
    rw [h, h]
    refine ⟨rfl, rfl, ?_, ?_⟩
    · have e1 := Obj.getitem_part (⟨s, l', [(.str "t" :: natKeys is, ⟨.dense c.size d.size, l⟩)]⟩ : Obj V) hws hlf [] (fun _ => rfl)
      rw [List.append_nil] at e1
      refine Eq.trans e1 ?_
      simp only [getCall, hm, hd, Option.getD_some, viewPrim]
      rfl
    · intro x hx
      have e1 := Obj.getitem_part (⟨s, l', [(.str "t" :: natKeys is, ⟨.dense c.size d.size, l⟩)]⟩ : Obj V) hws hlf x (by simp)
      have e2 := Obj.getitem_part (⟨s, l', []⟩ : Obj V) hws hlf x (by simp)
      refine Eq.trans e1 (Eq.trans ?_ e2.symm)
      obtain ⟨y, ys, rfl⟩ := List.exists_cons_of_ne_nil hx
      simp only [getCall, hm, hd, dictGet_nil, Option.getD_some]

theorem tops_view (c d : CS) (m : ℕ) : tops [.prim "t" [m] (viewPrim c d)] [.one "t"] =
    (List.range m).map fun j : ℕ => [.str "t", .int j] := by
  simp [tops, structCan, Entry.name, Entry.dims, entryCan, combine, listindices, lpack, rangeKeys, List.flatMap_map, List.flatMap_singleton']
  rw [← List.map_eq_flatMap, List.map_map]
  rfl

/-- **C89**, `product`: the view of a dense `MX` matrix casts to the matrix and reads, for every power index, what the view of a
`DM` or `SX` matrix reads.  Whatever is written through it, it raises when that view raises, casts to the same matrix as that
view, and all blocks that are selected by indices read as in that view; but the whole matrix, `view()` or `view[()]`, reads as
before the writes. -/
theorem C89_product_partial [Add V] [Sub V] (sc sd : Struct) (hwc : WFs sc.entries sc.order) (hwd : WFs sd.entries sd.order) :
    ∃ c d, CS.ofStruct sc = .ok c ∧ CS.ofStruct sd = .ok d ∧ ∀ a : SMat V, a.WF → a.sp = .dense c.size d.size →
      ∃ v v', c.product d a = .ok v ∧ c.productMX d a = .ok v' ∧ v'.cast = .ok (.leaf a) ∧ (∀ q, v'.getitem q = v.getitem q) ∧
        ∀ ws, (v'.setAll ws).1 = (v.setAll ws).1 ∧ (v'.setAll ws).2.cast = (v.setAll ws).2.cast ∧
          (∀ x, x ≠ [] → (v'.setAll ws).2.getitem x = (v.setAll ws).2.getitem x) ∧
          (v'.setAll ws).2.getitem [] = .ok (.leaf a) := by
  obtain ⟨c, lc, h1, rfl, hbc⟩ := ofStruct_built hwc
  obtain ⟨d, ld, h2, rfl, hbd⟩ := ofStruct_built hwd
  refine ⟨c, d, h1, h2, ?_⟩
  intro a haw has
  obtain ⟨s, ls, hv, hbs, hss⟩ := viewStruct_ok (V := V) c d none
  have hws : WFs s.struct.entries s.struct.order := by rw [hss]; exact view_wf c d []
  have hz : s.size = c.size * d.size := by
    rw [hbs.size_eq hws, hss]
    simp [countAll, Entry.count, viewPrim, Sparsity.dense, Sparsity.positions_length]
  obtain ⟨hda, hla⟩ := dense_data haw has
  have hp : c.product d a = .ok ⟨⟨s, a.data, []⟩, [.str "t"], true, some (c.size, d.size)⟩ := by
    rw [product_unfold c d has, hv]
    exact matrixView_ok s has hz
  obtain ⟨v', k1, k2, k3, k4⟩ := view_MX (V := V) hbs (is := []) hss (by rfl) .nil rfl (fun ks h => by cases h; rfl) hla hz
  refine ⟨_, v', hp, ?_, ?_, k3, fun ws => ?_⟩
  · rw [CS.productMX, hp]
    exact k1
  · rw [hda]; exact k2
  · obtain ⟨j1, j2, j3, j4⟩ := k4 ws
    refine ⟨j1, j2, fun x hx => j4 x hx, ?_⟩
    rw [hda]; exact j3

/-- **C89**, `squared`: as `product` of a struct with itself. -/
theorem C89_squared (c : CS) (a : SMat V) (hs : a.sp = .dense c.size c.size) : c.squaredMX a = c.productMX c a := by
  rw [CS.squaredMX, CS.productMX, squared_unfold c hs]

/-- **C89**, `squared_repeated`: for one block as `product`, with the number 0 of the block in front of the indices; for any other
number of blocks the `MX` view cannot be made. -/
theorem C89_squared_repeated_partial [Add V] [Sub V] (sc : Struct) (hwc : WFs sc.entries sc.order) :
    ∃ c, CS.ofStruct sc = .ok c ∧ (0 < c.size → ∀ (N : ℕ) (a : SMat V), a.WF → a.sp = .dense c.size (c.size * N) →
      (N = 1 → ∃ v v', c.squaredRepeated a = .ok v ∧ c.squaredRepeatedMX a = .ok v' ∧ v'.cast = .ok (.leaf a) ∧
        (∀ q, v'.getitem q = v.getitem q) ∧
        ∀ ws, (v'.setAll ws).1 = (v.setAll ws).1 ∧ (v'.setAll ws).2.cast = (v.setAll ws).2.cast ∧
          (∀ x, x ≠ [] → (v'.setAll ws).2.getitem (.int 0 :: x) = (v.setAll ws).2.getitem (.int 0 :: x)) ∧
          (v'.setAll ws).2.getitem [.int 0] = .ok (.leaf a)) ∧
      (N ≠ 1 → (∃ v, c.squaredRepeated a = .ok v) ∧ c.squaredRepeatedMX a = .error .runtime)) := by
  obtain ⟨c, lc, h1, rfl, hbc⟩ := ofStruct_built hwc
  refine ⟨c, h1, ?_⟩
  intro hpos N a haw has
  obtain ⟨s, ls, hv, hbs, hss⟩ := viewStruct_ok (V := V) c c (some [N])
  have hws : WFs s.struct.entries s.struct.order := by rw [hss]; exact view_wf c c [N]
  have hz : s.size = c.size * (c.size * N) := by
    rw [hbs.size_eq hws, hss]
    simp [countAll, Entry.count, viewPrim, Sparsity.dense, Sparsity.positions_length]
    ring
  obtain ⟨hda, hla⟩ := dense_data haw has
  have hp : c.squaredRepeated a = .ok ⟨⟨s, a.data, []⟩, [.str "t"], true, some (c.size, c.size * N)⟩ := by
    have h2 : a.sp.rows = c.size := by rw [has]; rfl
    have h3 : a.sp.cols = c.size * N := by rw [has]; rfl
    rw [CS.squaredRepeated, if_neg (by simpa using h2), if_neg (by omega), if_neg (by simp [h3]), h3,
      Nat.mul_div_cancel_left _ hpos, hv]
    exact matrixView_ok s has hz
  refine ⟨?_, fun hN => ⟨⟨_, hp⟩, ?_⟩⟩
  · rintro rfl
    rw [Nat.mul_one] at has hla hz
    obtain ⟨v', k1, k2, k3, k4⟩ := view_MX (V := V) hbs (is := [0]) hss (tops_view c c 1) (.cons (by omega) .nil) rfl
      (fun ks h => by
        cases h with
        | cons h1 h2 =>
          cases h2
          obtain ⟨j, hj, rfl⟩ := h1
          obtain rfl : j = 0 := by omega
          rfl) hla hz
    rw [Nat.mul_one] at hp
    refine ⟨_, v', hp, ?_, ?_, k3, fun ws => ?_⟩
    · rw [CS.squaredRepeatedMX, hp]
      exact k1
    · rw [hda, Nat.mul_one]; exact k2
    · obtain ⟨j1, j2, j3, j4⟩ := k4 ws
      refine ⟨j1, j2, fun x hx => j4 x hx, ?_⟩
      rw [hda, Nat.mul_one]; exact j3
  · rw [CS.squaredRepeatedMX, hp]
    show Except.bind (buildMap s.struct ⟨.dense c.size (c.size * N), a.data⟩) _ = _
    have hss : s.struct = ⟨[.prim "t" [N] (viewPrim c c)], [.one "t"]⟩ := hss
    rw [hss, buildMap, buildGo_eq (view_wf c c [N])]
    have hts : (tops [.prim "t" [N] (viewPrim c c)] [.one "t"]).map (topSize [.prim "t" [N] (viewPrim c c)]) =
        List.replicate N (c.size * c.size) := by
      rw [tops_view, List.map_map, List.eq_replicate_iff]
      refine ⟨by simp, ?_⟩
      intro x hx
      obtain ⟨j, hj, rfl⟩ := List.mem_map.1 hx
      have := topSize_eq (view_wf c c [N]).nodup (List.mem_singleton_self (Entry.prim "t" [N] (viewPrim c c))) [.int j]
      refine Eq.trans this ?_
      simp [Entry.blockSize, viewPrim, Sparsity.dense, Sparsity.positions_length]
    rw [hts]
    match N, hN with
    | 0, _ =>
      rw [vertsplit, if_pos]
      · rfl
      · left
        simp [offsets, Sparsity.dense]
        omega
    | k + 2, _ =>
      by_cases hc : c.size = 1 ∧ k = 0
      · obtain ⟨hc, rfl⟩ := hc
        rw [tops_view]
        have hv : vertsplit (⟨.dense c.size (c.size * (0 + 2)), a.data⟩ : SMat V) (offsets 0 (List.replicate (0 + 2) (c.size * c.size)) ++
            [(⟨.dense c.size (c.size * (0 + 2)), a.data⟩ : SMat V).sp.rows]) =
            .ok [(⟨.dense c.size (c.size * (0 + 2)), a.data⟩ : SMat V).rowBlock 0 c.size,
              (⟨.dense c.size (c.size * (0 + 2)), a.data⟩ : SMat V).rowBlock c.size 0] := by
          rw [vertsplit, if_neg]
          · simp [offsets, List.replicate, Sparsity.dense, hc]
          · simp [offsets, List.replicate, Sparsity.dense, hc]
        rw [hv, SMat.rowBlock_dense hla (by omega)]
        have hitem := topItem_eq (V := V) (view_wf c c [0 + 2]).nodup
          (List.mem_singleton_self (Entry.prim "t" [0 + 2] (viewPrim c c))) [.int (0 : ℕ)]
        have hsp : asPart (viewPrim c c).sp (SMat.fill (.dense c.size (c.size * (0 + 2)))
            fun p => a.data.getD (p.2 * c.size + (0 + p.1)) 0) = .error .runtime := by
          have h2 : c.size * (0 + 2) = 2 := by omega
          rw [SMat.fill, h2]
          exact asPart_two (by simp [viewPrim, Sparsity.nnz, Sparsity.dense, Sparsity.positions_length, hc]) hpos
        show Except.bind (Except.bind (buildStep [] [] (topItem _ (.str "t" :: [.int (0 : ℕ)]), _)) _) _ = _
        rw [show Key.str "t" = Key.str (Entry.prim "t" [0 + 2] (viewPrim c c)).name from rfl, hitem, buildStep]
        simp only [Entry.builder, Entry.topSp', hsp]
        rfl
      · rw [vertsplit, if_pos]
        · rfl
        · right; right
          intro hs
          simp only [List.replicate_succ, offsets, List.cons_append, List.pairwise_cons, Sparsity.dense] at hs
          have h5 := hs.2.1 c.size (by simp)
          have h6 : c.size = 1 := by
            rcases Nat.lt_or_ge c.size 2 with h | h
            · omega
            · have := Nat.mul_le_mul_right c.size h
              omega
          match k, hc with
          | 0, hc => exact hc ⟨h6, rfl⟩
          | k + 1, _ =>
            simp only [List.replicate_succ, offsets, List.cons_append, List.pairwise_cons] at hs
            have := hs.2.2.1 c.size (by simp)
            rw [h6] at this
            omega

/-- **C89** is false of the code: two numbers in a row are 1 and 2 at first; after 5 is written to the second one, the view casts to
the matrix with 5 and reads 5 at this place, but the whole matrix still reads as 1 and 2. -/
theorem C89_refuted : ∃ c d, CS.ofStruct (oneStruct ⟨.dense 1 1, false, none, none⟩) = .ok c ∧
    CS.ofStruct (oneStruct ⟨.dense 2 1, false, none, none⟩) = .ok d ∧ ∃ (v w : Prefixer ℤ) (a' : SMat ℤ),
      c.productMX d ⟨.dense 1 2, [1, 2]⟩ = .ok v ∧ v.setAll [([.int 0, .int 1], .num 5)] = (.ok (), w) ∧
      w.cast = .ok (.leaf a') ∧ a'.at' (0, 1) = 5 ∧ w.getitem [.int 0, .int 1] = .ok (.leaf (.scalar 5)) ∧
      w.getitem [] = .ok (.leaf ⟨.dense 1 2, [1, 2]⟩) := by
  have w1 := oneStruct_wf (p := ⟨.dense 1 1, false, none, none⟩) (Sparsity.dense_canon _ _)
  have w2 := oneStruct_wf (p := ⟨.dense 2 1, false, none, none⟩) (Sparsity.dense_canon _ _)
  obtain ⟨c, h1, hz1, -⟩ := C39_size _ w1
  obtain ⟨d, h2, hz2, -⟩ := C39_size _ w2
  have hz1 : c.size = 1 := hz1
  have hz2 : d.size = 2 := hz2
  obtain ⟨c', d', k1, k2, k3⟩ := C89_product_partial (V := ℤ) _ _ w1 w2
  rw [h1] at k1; rw [h2] at k2
  cases k1; cases k2
  obtain ⟨c', d', k1, k2, k4⟩ := C51_product (V := ℤ) _ _ w1 w2
  rw [h1] at k1; rw [h2] at k2
  cases k1; cases k2
  have hw : (⟨.dense 1 2, [1, 2]⟩ : SMat ℤ).WF := ⟨Sparsity.dense_canon _ _, rfl⟩
  have hsp : (⟨.dense 1 2, [1, 2]⟩ : SMat ℤ).sp = .dense c.size d.size := by rw [hz1, hz2]
  obtain ⟨v, v', a1, a2, -, -, a5⟩ := k3 _ hw hsp
  obtain ⟨u, b1, -, b3⟩ := k4 _ hw hsp
  rw [a1] at b1
  cases b1
  have hA : RowsOf (V := ℤ) c (.int 0) [0] := .int (i := 0) (by omega)
  have hB : RowsOf (V := ℤ) d (.int 1) [1] := .int (i := 1) (by omega)
  obtain ⟨-, b5⟩ := b3 _ _ _ _ hA hB
  obtain ⟨u', a', e1, e2, e3, e4, e5, e6, -⟩ := (b5 (.num 5) _ (.num 5) ⟨Sparsity.dense_canon _ _, rfl⟩).1 (fun _ => 5)
    (Fits.scalar (m := ⟨.dense 1 1, [5]⟩) rfl rfl) (by simp) (by simp)
  obtain ⟨c1, c2, c3, c4⟩ := a5 [([.int 0, .int 1], .num 5)]
  have hset : v.setAll [([.int 0, .int 1], .num 5)] = (.ok (), u') := by
    rw [Prefixer.setAll, e1]
    rfl
  rw [hset] at c1 c2 c3
  have h5 : a'.at' (0, 1) = 5 := e6 0 (by simp) 0 (by simp)
  obtain ⟨u2, f1, -, f3⟩ := k4 a' e2 (e3.trans hsp)
  rw [e4] at f1
  cases f1
  refine ⟨c, d, h1, h2, v', (v'.setAll [([.int 0, .int 1], .num 5)]).2, a', a2, ?_, c2.trans e5, h5, ?_, c4⟩
  · exact Prod.ext c1 rfl
  · rw [c3 _ (by simp), (f3 _ _ _ _ hA hB).1]
    show Except.ok (Tree.leaf (⟨_, [a'.at' (0, 1)]⟩ : SMat ℤ)) = _
    rw [h5]
    rfl

/-- The matrix of two blocks, 17 by 34, has a view as a `DM` but none as an `MX`; each of the blocks has one. -/
example : ∃ c, CS.ofStruct exStruct = .ok c ∧
    (∃ v, c.squaredRepeated (SMat.fill (.dense 17 34) fun p => (100 * p.1 + p.2 : ℤ)) = .ok v) ∧
    c.squaredRepeatedMX (SMat.fill (.dense 17 34) fun p => (100 * p.1 + p.2 : ℤ)) = .error .runtime ∧
    ∃ v, c.squaredMX (SMat.fill (.dense 17 17) fun p => (100 * p.1 + p.2 : ℤ)) = .ok v ∧
      v.cast = .ok (.leaf (SMat.fill (.dense 17 17) fun p => (100 * p.1 + p.2 : ℤ))) := by
  obtain ⟨c, h1, hs, _⟩ := C39_size exStruct exStruct_wf
  have hs : c.size = 17 := hs
  obtain ⟨c', h2, h3⟩ := C89_squared_repeated_partial (V := ℤ) exStruct exStruct_wf
  rw [h1] at h2
  cases h2
  obtain ⟨c', d', h2, h2', h4⟩ := C89_product_partial (V := ℤ) exStruct exStruct exStruct_wf exStruct_wf
  rw [h1] at h2 h2'
  cases h2
  cases h2'
  have hf : ∀ n m, (SMat.fill (.dense n m) fun p => (100 * p.1 + p.2 : ℤ)).WF := fun n m =>
    ⟨Sparsity.dense_canon _ _, by simp [SMat.fill]⟩
  have h5 := (h3 (by omega) 2 _ (hf 17 34) (by rw [hs]; rfl)).2 (by omega)
  obtain ⟨v, v', -, h6, h7, -⟩ := h4 _ (hf 17 17) (by rw [hs]; rfl)
  exact ⟨c, h1, h5.1, h5.2, v', (C89_squared c _ (by rw [hs]; rfl)).trans h6, h7⟩

end CE.St
