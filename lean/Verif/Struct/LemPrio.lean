import Verif.Struct.PropsPrefix
import Verif.Struct.BuildMap

/-! # Lemmas about `buildMap` -/

namespace CE.St

variable {V : Type}

/-! ## `vertsplit` of dense matrices -/

theorem SMat.dense_nzAt [Zero V] {l : List V} {n m : ℕ} (h : l.length = n * m) {i j : ℕ} (hi : i < n) (hj : j < m) :
    (⟨.dense n m, l⟩ : SMat V).nzAt (i, j) = some (l.getD (j * n + i) 0) := by
  have hmem : (i, j) ∈ (Sparsity.dense n m).nz := Sparsity.mem_positions.2 ⟨hi, hj⟩
  have h1 := SMat.dense_at' h hi hj
  rw [SMat.at'] at h1
  cases h2 : (⟨.dense n m, l⟩ : SMat V).nzAt (i, j) with
  | some v => rw [h2] at h1; rw [← h1]; rfl
  | none =>
    exfalso
    rw [SMat.nzAt_eq_none ⟨Sparsity.dense_canon _ _, by rw [h]; exact (Sparsity.positions_length _ _).symm⟩] at h2
    exact h2 hmem

theorem filterMap_some {α β : Type} (l : List α) (f : α → Option β) (g : α → β) (h : ∀ a ∈ l, f a = some (g a)) :
    l.filterMap f = l.map g := by
  induction l with
  | nil => rfl
  | cons a l ih =>
    rw [List.filterMap_cons_some (h a List.mem_cons_self), ih fun b hb => h b (List.mem_cons_of_mem _ hb), List.map_cons]

theorem SMat.rowBlock_dense [Zero V] {l : List V} {n m : ℕ} (h : l.length = n * m) {a r : ℕ} (ha : a + r ≤ n) :
    (⟨.dense n m, l⟩ : SMat V).rowBlock a r = SMat.fill (.dense r m) fun p => l.getD (p.2 * n + (a + p.1)) 0 := by
  have : (Sparsity.positions r m).filterMap (fun p => ((⟨.dense n m, l⟩ : SMat V).nzAt (a + p.1, p.2)).map fun v => (p, v)) =
      (Sparsity.positions r m).map fun p => (p, l.getD (p.2 * n + (a + p.1)) 0) := by
    apply filterMap_some
    intro p hp
    obtain ⟨h1, h2⟩ := Sparsity.mem_positions.1 hp
    rw [SMat.dense_nzAt h (by omega) h2]
    rfl
  rw [SMat.rowBlock]
  show (⟨⟨r, m, _⟩, _⟩ : SMat V) = _
  rw [show (⟨.dense n m, l⟩ : SMat V).sp.cols = m from rfl, this, SMat.fill]
  congr 1
  · rw [Sparsity.dense, List.map_map]
    congr 1
    exact List.map_id _
  · rw [List.map_map]; rfl

theorem SMat.rowBlock_col [Zero V] (l : List V) {a r : ℕ} (ha : a + r ≤ l.length) :
    (SMat.col l).rowBlock a r = .col ((l.drop a).take r) := by
  rw [SMat.col, SMat.rowBlock_dense (by simp) ha, SMat.col]
  have hl : ((l.drop a).take r).length = r := by simp; omega
  rw [hl, SMat.fill]
  congr 1
  rw [← block_getD l a r ha, block, List.map_map]
  show (Sparsity.positions r 1).map _ = _
  simp [Sparsity.positions]

/-- A list cut into pieces. -/
def cuts : List V → List ℕ → List (List V)
  | _, [] => []
  | l, n :: ns => l.take n :: cuts (l.drop n) ns

theorem offsets_ge {k : ℕ} {ns : List ℕ} : ∀ x ∈ offsets k ns ++ [k + ns.sum], k ≤ x ∧ x ≤ k + ns.sum := by
  induction ns generalizing k with
  | nil => simp [offsets]
  | cons n ns ih =>
    intro x hx
    rw [offsets, List.cons_append, List.mem_cons] at hx
    rw [List.sum_cons]
    rcases hx with rfl | hx
    · omega
    · have := ih (k := k + n) x (by rwa [List.sum_cons, ← Nat.add_assoc] at hx)
      omega

theorem offsets_sorted (k : ℕ) (ns : List ℕ) : (offsets k ns ++ [k + ns.sum]).Pairwise (· ≤ ·) := by
  induction ns generalizing k with
  | nil => simp [offsets]
  | cons n ns ih =>
    rw [offsets, List.cons_append, List.sum_cons, ← Nat.add_assoc]
    refine List.Pairwise.cons ?_ (ih _)
    intro x hx
    have := (offsets_ge x hx).1
    omega

theorem offsets_head (k : ℕ) (ns : List ℕ) : (offsets k ns ++ [k + ns.sum]).head? = some k := by
  cases ns <;> simp [offsets]

theorem zipWith_offsets [Zero V] (l : List V) (k : ℕ) (ns : List ℕ) (h : k + ns.sum ≤ l.length) :
    List.zipWith (fun a b => (SMat.col l).rowBlock a (b - a)) (offsets k ns ++ [k + ns.sum]) (offsets k ns ++ [k + ns.sum]).tail =
      (cuts (l.drop k) ns).map SMat.col := by
  induction ns generalizing k with
  | nil => simp [offsets, cuts]
  | cons n ns ih =>
    rw [List.sum_cons] at h
    have ih := ih (k + n) (by omega)
    rw [offsets, cuts, List.cons_append, List.tail_cons, List.sum_cons, ← Nat.add_assoc]
    rw [List.drop_drop, List.map_cons, ← ih]
    cases ns with
    | nil =>
      simp only [offsets, List.nil_append, List.sum_nil, Nat.add_zero, List.tail_cons, List.zipWith_cons_cons, List.zipWith_nil_right]
      rw [SMat.rowBlock_col l (by omega), show k + n - k = n by omega]
    | cons n' ns =>
      simp only [offsets, List.cons_append, List.tail_cons, List.zipWith_cons_cons]
      rw [SMat.rowBlock_col l (by omega), show k + n - k = n by omega]

theorem vertsplit_col [Zero V] (l : List V) (ns : List ℕ) (h : ns.sum = l.length) :
    vertsplit (SMat.col l) (offsets 0 ns ++ [(SMat.col l).sp.rows]) = .ok ((cuts l ns).map SMat.col) := by
  have hr : (SMat.col l).sp.rows = 0 + ns.sum := by rw [Nat.zero_add, h]; rfl
  rw [vertsplit, if_neg]
  · rw [hr, zipWith_offsets l 0 ns (by omega), List.drop_zero]
  · rw [hr]
    simp only [not_or, not_not]
    exact ⟨offsets_head _ _, by simp, offsets_sorted _ _⟩

/-- `MX(sp, k)` for a column with one element per nonzero. -/
theorem mxOf_col [Zero V] {sp : Sparsity} {l : List V} (h : l.length = sp.nnz) : mxOf sp (.col l) = .ok ⟨sp, l⟩ := by
  rw [mxOf]
  have hat : ∀ i < l.length, (SMat.col l).at' (i, 0) = l.getD i 0 := by
    intro i hi
    rw [SMat.col, SMat.dense_at' (by simp) hi (by omega), Nat.zero_mul, Nat.zero_add]
  split
  · rfl
  · split
    · rename_i h1
      have h1 : l.length = 1 := by
        simp only [SMat.isScalar, decide_eq_true_eq] at h1
        exact h1.1
      rw [SMat.fill, List.map_const', hat 0 (by omega)]
      congr 2
      obtain ⟨v, rfl⟩ := List.length_eq_one_iff.1 h1
      have : sp.nz.length = 1 := by rw [← h1, h]; rfl
      rw [this]; rfl
    · rw [if_pos ⟨rfl, h⟩]
      congr 2
      apply List.ext_getElem
      · simp [SMat.col, Sparsity.dense]
      · intro i h1 h2
        simp only [List.getElem_map, List.getElem_range]
        rw [hat i h2, List.getD_eq_getElem?_getD, List.getElem?_eq_getElem h2, Option.getD_some]

/-! ## The loop -/

theorem buildTable_eq [Zero V] (es : List Entry) :
    buildTable (V := V) es = es.map fun e => (e.name, e.topSp, e.builder) := by
  induction es with
  | nil => rfl
  | cons e es ih => rw [buildTable, ih]; rfl

/-- The pattern of a repetition of an entry. -/
def Entry.topSp' : Entry → Sparsity
  | .prim _ _ p => p.sp
  | .nested _ _ es _ => .dense (countAll es) 1

theorem Entry.topSp'_nnz (e : Entry) : e.topSp'.nnz = e.blockSize := by
  cases e with
  | prim n d p => rfl
  | nested n d es o => simp [Entry.topSp', Entry.blockSize, Sparsity.nnz, Sparsity.dense, Sparsity.positions_length]

theorem Entry.topSp_ok {es o} (hwf : WFs es o) {e : Entry} (he : e ∈ es) : e.topSp = .ok e.topSp' := by
  cases e with
  | prim n d p => rfl
  | nested n d es' o' =>
    have hw := hwf.sub _ _ _ _ he
    obtain ⟨c, ls, h1, h2, hb⟩ := ofStruct_built (s := ⟨es', o'⟩) hw
    rw [Entry.topSp, h1, Entry.topSp']
    have : c.size = countAll es' := by
      have := hb.size_eq (by rw [h2]; exact hw)
      rw [this, h2]
    rw [← this]
    rfl

/-- What the first loop finds for a repetition of an entry. -/
def topItem [Zero V] (es : List Entry) (t : CIdx) : TopItem V :=
  match t with
  | .str n :: _ => match dictEntry es n with
    | some e => (t, e.topSp', e.builder)
    | none => (t, .dense 0, fun _ _ m => .ok m)
  | _ => (t, .dense 0, fun _ _ m => .ok m)

theorem topItem_eq [Zero V] {es : List Entry} (hn : (es.map Entry.name).Nodup) {e : Entry} (he : e ∈ es) (ks : CIdx) :
    topItem (V := V) es (.str e.name :: ks) = (.str e.name :: ks, e.topSp', e.builder) := by
  rw [topItem, dictEntry_of_mem hn he]

theorem tops_items [Zero V] {es o} (hwf : WFs es o) :
    ((tops es o).mapM fun i => do
      let t ← tableAt (buildTable (V := V) es) i
      let sp ← t.1
      pure ((i, sp, t.2) : TopItem V)) = .ok ((tops es o).map (topItem es)) := by
  apply except_mapM_ok
  intro t ht
  obtain ⟨e, he, ks, hks, rfl⟩ := (mem_tops hwf).1 ht
  have : tableAt (buildTable (V := V) es) (.str e.name :: ks) = .ok (e.topSp, e.builder) := by
    rw [tableAt, strings_str, strings_ints hks.ints, buildTable_eq, ← List.map_reverse]
    simp only
    rw [List.find?_map]
    have := dictEntry_of_mem hwf.nodup he
    rw [dictEntry] at this
    have hf : (fun x : String × Except PyErr Sparsity × Builder V => decide (x.1 = e.name)) ∘
        (fun e : Entry => (e.name, e.topSp, e.builder)) = fun x => decide (x.name = e.name) := rfl
    rw [hf, this]
    rfl
  rw [this, topItem_eq hwf.nodup he]
  show (do let sp ← e.topSp; pure _) = _
  rw [Entry.topSp_ok hwf he]
  rfl

/-- Two repetitions of entries that begin the same index are the same. -/
theorem tops_unique {es o} (hwf : WFs es o) {t t' d : CIdx} (h : t ∈ tops es o) (h' : t' ∈ tops es o) (hd : t <+: d)
    (hd' : t' <+: d) : t = t' := by
  obtain ⟨e, he, ks, hks, rfl⟩ := (mem_tops hwf).1 h
  obtain ⟨e', he', ks', hks', rfl⟩ := (mem_tops hwf).1 h'
  obtain ⟨x, rfl⟩ := hd
  obtain ⟨y, hy⟩ := hd'
  rw [List.cons_append, List.cons_append] at hy
  injection hy with hn hy
  injection hn with hn
  have : e = e' := by
    have h1 := dictEntry_of_mem hwf.nodup he
    rw [← hn, dictEntry_of_mem hwf.nodup he'] at h1
    exact (Option.some.inj h1).symm
  subst this
  have hlen : ks'.length = ks.length := by rw [hks.length_eq, hks'.length_eq]
  rw [(List.append_inj hy hlen).1]

/-- Every readable part is a repetition of an entry or below one. -/
theorem IsPart.top {es o a e sp} (hwf : WFs es o) (h : IsPart es a e sp) : ∃ t ∈ tops es o, t <+: a := by
  have hl : ∀ {c p}, IsLeaf es c p → ∃ t ∈ tops es o, t <+: c := by
    intro c p h
    cases h with
    | prim he hks => exact ⟨_, (mem_tops hwf).2 ⟨_, he, _, hks, rfl⟩, List.prefix_refl _⟩
    | nested he hks _ => exact ⟨_, (mem_tops hwf).2 ⟨_, he, _, hks, rfl⟩, ⟨_, rfl⟩⟩
  cases h with
  | leaf h => exact hl h
  | node h _ =>
    cases h with
    | top he hks => exact ⟨_, (mem_tops hwf).2 ⟨_, he, _, hks, rfl⟩, List.prefix_refl _⟩
    | nested he hks _ => exact ⟨_, (mem_tops hwf).2 ⟨_, he, _, hks, rfl⟩, ⟨_, rfl⟩⟩

/-- Nothing is below a primitive element. -/
theorem IsPart.not_below {es o a e sp} (hwf : WFs es o) (h : IsPart es a e sp) {n d p ks} (he : Entry.prim n d p ∈ es)
    (hks : InDims ks d) {x : CIdx} (ha : a = (Key.str n :: ks) ++ x) : x = [] := by
  have hsame : ∀ {e' : Entry}, e' ∈ es → e'.name = n → e' = .prim n d p := by
    intro e' he' hn
    have h1 := dictEntry_of_mem hwf.nodup he
    have h2 := dictEntry_of_mem hwf.nodup he'
    rw [hn] at h2
    exact Option.some.inj (h2.symm.trans h1)
  rw [List.cons_append] at ha
  cases h with
  | leaf h =>
    cases h with
    | prim he' hks' =>
      injection ha with hn ha
      injection hn with hn
      have := hsame he' hn
      cases this
      have h1 := hks'.length_eq
      have h2 := hks.length_eq
      rw [ha, List.length_append] at h1
      exact List.eq_nil_of_length_eq_zero (by omega)
    | nested he' hks' _ =>
      injection ha with hn ha
      injection hn with hn
      exact absurd (hsame he' hn) (by simp)
  | node h _ =>
    cases h with
    | top he' hks' =>
      injection ha with hn ha
      injection hn with hn
      exact absurd (hsame he' hn) (by simp)
    | nested he' hks' _ =>
      injection ha with hn ha
      injection hn with hn
      exact absurd (hsame he' hn) (by simp)

/-- The value of a part of a column. -/
def partVal [Zero V] (l : List V) (i : IMat) : SMat V := ⟨i.sp, i.data.map fun k => l.getD k 0⟩

theorem partVal_mapData [Zero V] {l : List V} {off n : ℕ} {i : IMat} (h : off + n ≤ l.length) (hi : ∀ k ∈ i.data, k < n) :
    partVal l (i.mapData (off + ·)) = partVal ((l.drop off).take n) i := by
  obtain ⟨sp, d⟩ := i
  show (⟨sp, (d.map _).map _⟩ : SMat V) = ⟨sp, d.map _⟩
  congr 1
  rw [List.map_map]
  apply List.map_congr_left
  intro k hk
  have := hi k hk
  simp only [Function.comp, List.getD_eq_getElem?_getD]
  rw [List.getElem?_take, if_pos this, List.getElem?_drop]

/-- What a call of `buildMap` does: it succeeds, leaves other keys alone and stores the value of every part. -/
def BuildsRight [Zero V] (c : CS) (b : Builder V) : Prop :=
  ∀ (l : List V), l.length = c.size → ∀ (pre : CIdx) (m : Prio V), ∃ m', b pre (.col l) m = .ok m' ∧
    (∀ key, ¬ pre <+: key → dictGet m' key = dictGet m key) ∧
    ∀ d i, dictGet c.map d = some i → dictGet m' (pre ++ d) = some (partVal l i)

theorem buildStep_col [Zero V] {sp : Sparsity} {l : List V} (hl : l.length = sp.nnz) (pre t : CIdx) (b : Builder V) (m m' : Prio V)
    (hb : b (pre ++ t) (.col l) m = .ok m') :
    buildStep pre m ((t, sp, b), .col l) = .ok (dictSet m' (pre ++ t) ⟨sp, l⟩) := by
  have hv : asPart sp (.col l) = .ok ⟨sp, l⟩ := by
    rw [asPart]
    split
    · rename_i h
      rw [← h]
      rfl
    · exact mxOf_col hl
  rw [buildStep]
  simp only
  rw [hb, hv]
  rfl

theorem dictGet_part_ne {c : CS} {ls} (hb : Built c ls) (hwf : WFs c.struct.entries c.struct.order) {d : CIdx} {i : IMat}
    (h : dictGet c.map d = some i) : d ≠ [] := by
  obtain ⟨e, sp, hp⟩ := hb.get_part hwf h
  obtain ⟨t, ht, htd⟩ := hp.top hwf
  obtain ⟨e, _, ks, _, rfl⟩ := (mem_tops hwf).1 ht
  rintro rfl
  simpa using htd.length_le

/-- One repetition of an entry. -/
theorem buildStep_right [Zero V] {c : CS} {ls} (hb : Built c ls) (hwf : WFs c.struct.entries c.struct.order)
    (ih : ∀ n d es' o', Entry.nested n d es' o' ∈ c.struct.entries → ∀ c' ls', Built c' ls' → c'.struct = ⟨es', o'⟩ →
      BuildsRight (V := V) c' (buildGo (Struct.traverseCanonicalIndex ⟨es', o'⟩ 1) (buildTable es')))
    {l : List V} (hl : l.length = c.size) (pre : CIdx) (m : Prio V) {A B : List CIdx} {t : CIdx}
    (hAB : tops c.struct.entries c.struct.order = A ++ t :: B) :
    ∃ m', buildStep pre m (topItem c.struct.entries t,
        .col ((l.drop (A.map (topSize c.struct.entries)).sum).take (topSize c.struct.entries t))) = .ok m' ∧
      (∀ key, ¬ (pre ++ t) <+: key → dictGet m' key = dictGet m key) ∧
      ∀ d i, t <+: d → dictGet c.map d = some i → dictGet m' (pre ++ d) = some (partVal l i) := by
  have ht : t ∈ tops c.struct.entries c.struct.order := by rw [hAB]; simp
  obtain ⟨e, he, ks, hks, rfl⟩ := (mem_tops hwf).1 ht
  have hle : (A.map (topSize c.struct.entries)).sum + topSize c.struct.entries (.str e.name :: ks) ≤ l.length := by
    rw [hl, hb.size_eq hwf, ← sum_tops hwf, hAB]
    simp only [List.map_append, List.map_cons, List.sum_append, List.sum_cons]
    omega
  have hpos := hb.top_pos hwf he hks hAB
  rw [topItem_eq hwf.nodup he]
  rw [topSize_eq hwf.nodup he] at hle ⊢
  have hlen : ((l.drop (A.map (topSize c.struct.entries)).sum).take e.blockSize).length = e.topSp'.nnz := by
    rw [Entry.topSp'_nnz]; simp; omega
  cases e with
  | prim n d p =>
    refine ⟨_, buildStep_col hlen pre _ _ m m rfl, ?_, ?_⟩
    · intro key hk
      rw [dictGet_dictSet, if_neg]
      rintro rfl
      exact hk (List.prefix_refl _)
    · rintro x i ⟨y, rfl⟩ hi
      obtain ⟨e', sp', hp⟩ := hb.get_part hwf hi
      have hy : y = [] := hp.not_below hwf he hks rfl
      subst hy
      rw [List.append_nil] at hi ⊢
      rw [hpos] at hi
      cases hi
      rw [dictGet_dictSet, if_pos rfl, partVal]
      congr 2
      exact (block_getD _ _ _ hle).symm
  | nested n d es' o' =>
    have hw' := hwf.sub _ _ _ _ he
    obtain ⟨c', ls', _, hs, hb'⟩ := ofStruct_built (s := ⟨es', o'⟩) hw'
    have hsz : c'.size = countAll es' := by
      have := hb'.size_eq (by rw [hs]; exact hw')
      rw [this, hs]
    have hlen' : ((l.drop (A.map (topSize c.struct.entries)).sum).take (Entry.nested n d es' o').blockSize).length = c'.size := by
      rw [hlen, Entry.topSp'_nnz, hsz]; rfl
    obtain ⟨m1, h1, h2, h3⟩ := ih n d es' o' he c' ls' hb' hs _ hlen' (pre ++ .str n :: ks) m
    refine ⟨_, buildStep_col hlen pre _ _ m m1 (by rw [Entry.builder]; exact h1), ?_, ?_⟩
    · intro key hk
      rw [dictGet_dictSet, if_neg, h2 _ hk]
      rintro rfl
      exact hk (List.prefix_refl _)
    · rintro x i ⟨y, rfl⟩ hi
      rw [dictGet_dictSet]
      by_cases hy : y = []
      · subst hy
        rw [List.append_nil] at hi ⊢
        rw [if_pos rfl]
        rw [hpos] at hi
        simp only at hi
        split at hi
        · cases hi
        · cases hi
          rw [partVal]
          congr 2
          · show Sparsity.dense (countAll es') 1 = Sparsity.dense (block _ _).length 1
            rw [block_length]
          · exact (block_getD _ _ _ hle).symm
      · rw [if_neg]
        · have hA : ∀ t ∈ A, t ∈ tops c.struct.entries c.struct.order := fun t ht => by rw [hAB]; simp [ht]
          have hl' : leafList c.struct.entries c.struct.order = A.flatMap (expand c.struct.entries) ++
              (leafList es' o').map ((.str n :: ks) ++ ·) ++ B.flatMap (expand c.struct.entries) := by
            rw [leafList_tops, hAB, List.flatMap_append, List.flatMap_cons, List.append_assoc]
            congr 2
            have := expand_eq (dictEntry_of_mem hwf.nodup he) ks
            rw [kids_nested] at this
            exact this
          have hg := hb.get_shift hwf (.top he hks) hb' hs hl' y hy
          rw [wsum_expands hwf hA] at hg
          change dictGet c.map (Key.str n :: ks ++ y) = some i at hi
          rw [hg] at hi
          cases hi' : dictGet c'.map y with
          | none => rw [hi'] at hi; cases hi
          | some i' =>
            rw [hi'] at hi
            cases hi
            show dictGet m1 (pre ++ (Key.str n :: ks ++ y)) = _
            rw [← List.append_assoc, h3 y i' hi']
            congr 1
            refine (partVal_mapData hle ?_).symm
            intro k hk
            have := hb'.get_lt (by rw [hs]; exact hw') hi' k hk
            rwa [hsz] at this
        · intro h
          have := congrArg List.length h
          simp at this
          exact hy this

theorem cuts_cons (l : List V) (n : ℕ) (ns : List ℕ) : cuts l (n :: ns) = l.take n :: cuts (l.drop n) ns := rfl

/-- `buildMap` of a well-formed struct and a column of the right length. -/
theorem buildGo_right [Zero V] {es o} (hwf : WFs es o) : ∀ c ls, Built c ls → c.struct = ⟨es, o⟩ →
    BuildsRight (V := V) c (buildGo (Struct.traverseCanonicalIndex ⟨es, o⟩ 1) (buildTable es)) := by
  induction hwf with
  | @mk es o hn hp hc hsub ih =>
    have hwf : WFs es o := .mk hn hp hc hsub
    intro c ls hb hs l hl pre m
    have hwc : WFs c.struct.entries c.struct.order := by rw [hs]; exact hwf
    have hes : c.struct.entries = es := by rw [hs]
    have ho : c.struct.order = o := by rw [hs]
    have hfold : ∀ B A m, tops es o = A ++ B → ∃ m',
        ((B.map (topItem es)).zip ((cuts (l.drop (A.map (topSize es)).sum) (B.map (topSize es))).map SMat.col)).foldlM (buildStep pre) m =
          .ok m' ∧
        (∀ key, (∀ t ∈ B, ¬ (pre ++ t) <+: key) → dictGet m' key = dictGet m key) ∧
        ∀ t ∈ B, ∀ d i, t <+: d → dictGet c.map d = some i → dictGet m' (pre ++ d) = some (partVal l i) := by
      intro B
      induction B with
      | nil =>
        intro A m _
        exact ⟨m, rfl, fun _ _ => rfl, by simp⟩
      | cons t B ihB =>
        intro A m hAB
        obtain ⟨m1, h1, h2, h3⟩ := buildStep_right hb hwc (by rw [hes]; exact ih) hl pre m (A := A) (B := B) (t := t)
          (by rw [hes, ho]; exact hAB)
        obtain ⟨m2, h4, h5, h6⟩ := ihB (A ++ [t]) m1 (by rw [hAB]; simp)
        rw [hes] at h1
        refine ⟨m2, ?_, ?_, ?_⟩
        · rw [List.map_cons, List.map_cons, cuts_cons, List.map_cons, List.zip_cons_cons, List.foldlM_cons, h1]
          rw [List.map_append, List.sum_append, ← List.drop_drop] at h4
          show List.foldlM (buildStep pre) m1 _ = _
          simpa using h4
        · intro key hk
          rw [h5 key fun t' ht' => hk t' (List.mem_cons_of_mem _ ht'), h2 key (hk t List.mem_cons_self)]
        · intro t' ht' d i hd hi
          rcases List.mem_cons.1 ht' with rfl | ht'
          · rw [h5, h3 d i hd hi]
            intro t'' ht'' hpre
            have hpre := (List.prefix_append_right_inj pre).1 hpre
            have hd' : t'' = t' := by
              refine tops_unique hwf ?_ ?_ hpre hd
              · rw [hAB]; simp [ht'']
              · rw [hAB]; simp
            have hnd := tops_nodup hwf
            rw [hAB, List.nodup_append] at hnd
            have := (List.nodup_cons.1 hnd.2.1).1
            exact this (hd' ▸ ht'')
          · exact h6 t' ht' d i hd hi
    obtain ⟨m', h1, h2, h3⟩ := hfold (tops es o) [] m rfl
    refine ⟨m', ?_, ?_, ?_⟩
    · rw [buildGo, traverseCanonicalIndex_one, tops_items hwf]
      show (do
        let parts ← vertsplit (SMat.col l) (offsets 0 (((tops es o).map (topItem (V := V) es)).map fun e : TopItem V => e.2.1.nnz) ++ [(SMat.col l).sp.rows])
        (((tops es o).map (topItem es)).zip parts).foldlM (buildStep pre) m) = _
      have hmap : ((tops es o).map (topItem (V := V) es)).map (fun e : TopItem V => e.2.1.nnz) = (tops es o).map (topSize es) := by
        rw [List.map_map]
        apply List.map_congr_left
        intro t ht
        obtain ⟨e, he, ks, hks, rfl⟩ := (mem_tops hwf).1 ht
        rw [Function.comp, topItem_eq hn he, topSize_eq hn he]
        exact Entry.topSp'_nnz e
      rw [hmap, vertsplit_col]
      · show List.foldlM (buildStep pre) m _ = _
        simpa using h1
      · rw [sum_tops hwf, hl, hb.size_eq hwc, hes]
    · intro key hk
      apply h2
      intro t _ ht
      exact hk ((List.prefix_append pre t).trans ht)
    · intro d i hi
      obtain ⟨e, sp, hp⟩ := hb.get_part hwc hi
      obtain ⟨t, ht, htd⟩ := hp.top hwc
      rw [hes, ho] at ht
      exact h3 t ht d i htd hi

end CE.St
