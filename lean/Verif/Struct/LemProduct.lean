import Verif.Struct.PropsPrefix
import Verif.Struct.PropsDefine
import Verif.Struct.Product

/-! # Lemmas for views by two structs -/

namespace CE.St

variable {V : Type}

/-! ## `s.f` gives positions of the struct -/

theorem extra_mem {i : IMat} {entry : Option Prim} {flip : Bool} {x : List (PIdx Empty)} {P : ℕ → Prop}
    (hi : ∀ k ∈ i.data, P k) {r : IMat}
    (hr : performExtraIndex (fun f : Empty => f.elim) i entry flip x = .ok r) : ∀ k ∈ r.data, P k := by
  classical
  have h := performExtraIndex_mapData (fun f : Empty => f.elim) (fun _ => True) (fun k => if P k then k else k + 1)
    (fun f => f.elim) i entry flip x (fun _ _ f _ => f.elim)
  rw [SMat.mapData_eq_self fun k hk => if_pos (hi k hk), hr] at h
  have h1 : r = r.mapData _ := Except.ok.inj h
  intro k hk
  have h2 := SMat.fixed_of_mapData h1.symm k hk
  by_contra hP
  simp only [if_neg hP] at h2
  omega

/-- All numbers of a result of `s.f` are below `n`. -/
def VecLt (n : ℕ) (t t' : Tree (List ℤ)) : Prop := t = t' ∧ ∀ l, t.vec = .ok l → ∀ k ∈ l, 0 ≤ k ∧ k < n

theorem VecLt.list {n : ℕ} {l l' : List (Tree (List ℤ))} (h : List.Forall₂ (VecLt n) l l') :
    VecLt n (.list l) (.list l') := by
  have : l = l' ∧ ∀ r, Tree.vec.goList l = .ok r → ∀ k ∈ r, 0 ≤ k ∧ k < n := by
    induction h with
    | nil => exact ⟨rfl, by rintro _ ⟨⟩ k hk; cases hk⟩
    | @cons x _ l _ hx _ ih =>
      refine ⟨by rw [hx.1, ih.1], ?_⟩
      intro r hr k hk
      rw [Tree.vec.goList] at hr
      cases ha : x.vec with
      | error e => rw [ha] at hr; cases hr
      | ok a =>
        rw [ha] at hr
        cases hb : Tree.vec.goList l with
        | error e => rw [hb] at hr; cases hr
        | ok b =>
          rw [hb] at hr
          cases hr
          exact (List.mem_append.1 hk).elim (hx.2 a ha k) (ih.2 b hb k)
  exact ⟨by rw [this.1], by rw [Tree.vec]; exact this.2⟩

theorem VecLt.dict {n : ℕ} {l l' : List (String × Tree (List ℤ))}
    (h : List.Forall₂ (fun x y => x.1 = y.1 ∧ VecLt n x.2 y.2) l l') : VecLt n (.dict l) (.dict l') := by
  have : l = l' := by
    induction h with
    | nil => rfl
    | cons hx _ ih => rw [ih, Prod.ext hx.1 hx.2.1]
  exact ⟨by rw [this], by intro l h; rw [Tree.vec] at h; cases h⟩

theorem flatDisp_rel {c : CS} {ls} (hb : Built c ls) (hwf : WFs c.struct.entries c.struct.order) :
    DRel (V := V) (S := (· = ·)) (VecLt c.size) [] (fun _ => True) (flatDisp c.map) (flatDisp c.map) where
  list := VecLt.list
  dict := VecLt.dict
  call := by
    intro inner pay d x e hd _ _ s s' hs
    simp only [flatDisp, ex, M.lift, List.nil_append]
    cases h : flatCall (fun f : Empty => f.elim) c.map d x e with
    | error e => exact ⟨rfl, trivial⟩
    | ok r =>
      refine ⟨⟨rfl, ?_⟩, trivial⟩
      intro l hl k hk
      rw [Tree.vec] at hl
      cases hl
      rw [flatCall] at h
      cases hm : dictGet c.map d with
      | none => rw [hm] at h; cases h
      | some m =>
        rw [hm] at h
        simp only at h
        cases hp : performExtraIndex (fun f : Empty => f.elim) m e false (x.getD []) with
        | error e => rw [hp] at h; cases h
        | ok i =>
          rw [hp] at h
          simp only [Except.bind] at h
          split at h
          · cases h
            obtain ⟨j, hj, rfl⟩ := List.mem_map.1 hk
            have := extra_mem (hb.get_lt hwf hm) hp j hj
            omega
          · cases h
  outer := fun _ f => f.elim

/-- `s.f[...]` gives positions of the struct. -/
theorem CS.f_lt {c : CS} {ls} (hb : Built c ls) (hwf : WFs c.struct.entries c.struct.order) {pi : List (PIdx Empty)}
    {l : List ℤ} (h : c.f pi = .ok l) : ∀ k ∈ l, 0 ≤ k ∧ k < c.size := by
  rw [CS.f, Struct.traverse_fst] at h
  simp only at h
  cases pi with
  | nil =>
    have hno : dictGet c.map [] = none := by
      cases hm : dictGet c.map [] with
      | none => rfl
      | some m =>
        obtain ⟨e, sp, hp⟩ := hb.get_part hwf hm
        generalize hd : ([] : CIdx) = d at hp
        cases hp with
        | leaf hl => cases hl <;> cases hd
        | node hn _ => cases hn <;> cases hd
    rw [goStruct] at h
    simp only [flatDisp, flatCall, hno, ex, M.lift, M.bind] at h
    cases h
  | cons p pi =>
    have hr := goStruct_rel (flatDisp_rel (V := Empty) hb hwf) c.struct.keys
      (travTable_rel (flatDisp_rel (V := Empty) hb hwf) c.struct.entries (Prims.true _)) (p :: pi) false [] .none
      (.inr ⟨p, List.mem_cons_self, by cases p <;> first | rfl | (rename_i f; exact f.elim)⟩) (fun _ _ _ _ => trivial) () () rfl
    rw [List.nil_append] at hr
    rcases hg : goStruct (flatDisp (V := Empty) c.map) c.struct.keys (travTable (flatDisp c.map) c.struct.entries)
      (p :: pi) false [] .none () with ⟨r, u⟩
    rw [hg] at hr h
    cases r with
    | error e => cases h
    | ok t => exact hr.1.2 l h

/-! ## Rows and columns selected by an index -/

/-- The rows (or columns) of a matrix that an index selects by means of a struct: the name of an entry, a list of names or an
`indexf` stand for the positions that `s.f` gives for them (at least one); a number and `:` select without the struct;
an `index` of a single dense vector selects the positions that `s.i` gives for it. -/
inductive RowsOf (c : CS) : PIdx (PyFn V) → List ℕ → Prop
  | key {k l} : c.f [.str k] = .ok (l.map fun i : ℕ => (i : ℤ)) → l ≠ [] → RowsOf c (.str k) l
  | keys {ks l} : ks ≠ [] → (∀ k ∈ ks, ∃ n, k = Key.str n) → c.f [.list ks] = .ok (l.map fun i : ℕ => (i : ℤ)) → l ≠ [] →
      RowsOf c (.list ks) l
  | indexf {arg l} : c.f (arg.map .ofKey) = .ok (l.map fun i : ℕ => (i : ℤ)) → l ≠ [] → RowsOf c (.indexf arg) l
  | index {arg} {i : IMat} : c.i (V := Empty) (arg.map .ofKey) = .ok (.leaf i) → i.sp.isDense → i.sp.rows = 1 ∨ i.sp.cols = 1 →
      (∀ k ∈ i.data, k < c.size) → RowsOf c (.index arg) i.data
  | int {i : ℕ} : i < c.size → RowsOf c (.int i) [i]
  | all : RowsOf c (.slice none none none) (List.range c.size)

theorem normIdx_nat (n : ℕ) (l : List ℕ) (h : ∀ k ∈ l, k < n) : normIdx n (l.map fun i : ℕ => (i : ℤ)) = .ok l := by
  rw [normIdx]
  induction l with
  | nil => rfl
  | cons k l ih =>
    have hk := h k List.mem_cons_self
    rw [List.map_cons, List.mapM_cons, if_pos ⟨by omega, by omega⟩, canonical_nat,
      ih fun k hk => h k (List.mem_cons_of_mem _ hk)]
    rfl

theorem toInt_map (l : List ℤ) : (l.map Key.int).mapM Key.toInt = .ok l := by
  induction l with
  | nil => rfl
  | cons k l ih => rw [List.map_cons, List.mapM_cons, ih]; rfl

theorem csSlice_all (n : ℕ) : csSlice none none none n = .ok ((List.range n).map fun i : ℕ => (i : ℤ)) := by
  rw [csSlice]
  simp only [Option.getD_none]
  rw [if_neg (by omega), if_neg (by simp)]
  congr 1
  have : (if (0 : ℤ) < n then ((n : ℤ) - 0 - 1) / 1 + 1 else 0).toNat = n := by
    split
    · rw [Int.ediv_one]; omega
    · omega
  simp only [Int.reduceNeg, if_neg (show ¬ (1 : ℤ) < 0 by omega)]
  rw [this]
  apply List.map_congr_left
  intro k _
  ring

theorem RowsOf.select {c : CS} {ls} (hb : Built c ls) (hwf : WFs c.struct.entries c.struct.order) {x : PIdx (PyFn V)}
    {l : List ℕ} (h : RowsOf c x l) {p : Prim} {fs} {k : ℕ} (hs : p.ss = some fs) (hk : fs[k]? = some (some c.shapeFns)) :
    (∃ y, delegation x (some p) k = .ok y ∧ selIdx c.size y = .ok l) ∧ ∀ i ∈ l, i < c.size := by
  have key : ∀ {pi : List (PIdx Empty)} {l : List ℕ}, c.f pi = .ok (l.map fun i : ℕ => (i : ℤ)) → l ≠ [] →
      selIdx (F := PyFn V) c.size (.list ((l.map fun i : ℕ => (i : ℤ)).map .int)) = .ok l ∧ ∀ i ∈ l, i < c.size := by
    intro pi l hf hne
    have hlt : ∀ i ∈ l, i < c.size := by
      intro i hi
      have := c.f_lt hb hwf hf i (List.mem_map.2 ⟨i, hi, rfl⟩)
      omega
    refine ⟨?_, hlt⟩
    rw [selIdx, if_neg (by simpa using hne), toInt_map]
    exact normIdx_nat _ _ hlt
  cases h with
  | key hf hne =>
    obtain ⟨h1, h2⟩ := key hf hne
    refine ⟨⟨_, ?_, h1⟩, h2⟩
    simp only [delegation, hs, hk, CS.shapeFns, hf]
    rfl
  | keys h0 hk' hf hne =>
    obtain ⟨h1, h2⟩ := key hf hne
    refine ⟨⟨_, ?_, h1⟩, h2⟩
    rw [delegation]
    rw [if_pos ⟨h0, by
      rw [List.all_eq_true]
      intro k hk
      obtain ⟨n, rfl⟩ := hk' k hk
      rfl⟩]
    simp only [hs, hk, CS.shapeFns, hf]
    rfl
  | indexf hf hne =>
    obtain ⟨h1, h2⟩ := key hf hne
    refine ⟨⟨_, ?_, h1⟩, h2⟩
    simp only [delegation, hs, hk, CS.shapeFns, hf]
    rfl
  | @index arg i hi hd hv hlt =>
    have hm : (arg.map (PIdx.ofKey (F := Empty))).map (PIdx.lift (F := PyFn Empty)) = arg.map .ofKey := by
      rw [List.map_map]
      exact List.map_congr_left fun k _ => by cases k <;> rfl
    refine ⟨⟨.mat ⟨i.sp, i.data.map fun k : ℕ => (k : ℤ)⟩, ?_, ?_⟩, hlt⟩
    · simp only [delegation, hs, hk, CS.shapeFns, hm, hi]
      rfl
    · rw [selIdx, if_pos ⟨hd, hv⟩]
      exact normIdx_nat _ _ hlt
  | @int i hi =>
    refine ⟨⟨.int i, rfl, ?_⟩, by intro j hj; rw [List.mem_singleton.1 hj]; exact hi⟩
    rw [selIdx]
    exact normIdx_nat _ [i] (by intro j hj; rw [List.mem_singleton.1 hj]; exact hi)
  | all =>
    refine ⟨⟨_, rfl, ?_⟩, fun i hi => List.mem_range.1 hi⟩
    rw [selIdx, csSlice_all]
    exact normIdx_nat _ _ fun i hi => List.mem_range.1 hi

/-! ## Blocks of a dense index matrix -/

theorem lin_lt {n m i j : ℕ} (hi : i < n) (hj : j < m) : j * n + i < n * m := by
  calc j * n + i < j * n + n := by omega
    _ = (j + 1) * n := by ring
    _ ≤ m * n := Nat.mul_le_mul_right _ hj
    _ = n * m := by ring

theorem lin_inj {n i j i' j' : ℕ} (hi : i < n) (hi' : i' < n) (h : j * n + i = j' * n + i') : i = i' ∧ j = j' := by
  have h1 : (j * n + i) % n = i := by rw [Nat.add_comm, Nat.add_mul_mod_self_right, Nat.mod_eq_of_lt hi]
  have h2 : (j' * n + i') % n = i' := by rw [Nat.add_comm, Nat.add_mul_mod_self_right, Nat.mod_eq_of_lt hi']
  have h3 : (j * n + i) / n = j := by
    rw [Nat.add_comm, Nat.add_mul_div_right _ _ (by omega), Nat.div_eq_of_lt hi, Nat.zero_add]
  have h4 : (j' * n + i') / n = j' := by
    rw [Nat.add_comm, Nat.add_mul_div_right _ _ (by omega), Nat.div_eq_of_lt hi', Nat.zero_add]
  rw [h] at h1 h3
  exact ⟨by rw [← h1, h2], by rw [← h3, h4]⟩

theorem block_nzAt (off n m : ℕ) {i j : ℕ} (hi : i < n) (hj : j < m) :
    (⟨.dense n m, block off (n * m)⟩ : IMat).nzAt (i, j) = some (off + (j * n + i)) := by
  rw [SMat.nzAt_eq_some (Sparsity.dense_canon _ _)]
  have hlt := lin_lt hi hj
  refine ⟨j * n + i, ?_, ?_⟩
  · show (Sparsity.positions n m)[j * n + i]? = _
    rw [Sparsity.positions_eq, List.getElem?_map, List.getElem?_range hlt]
    simp only [Option.map_some, Option.some.injEq, Prod.mk.injEq]
    constructor
    · rw [Nat.add_comm, Nat.add_mul_mod_self_right, Nat.mod_eq_of_lt hi]
    · rw [Nat.add_comm, Nat.add_mul_div_right _ _ (by omega), Nat.div_eq_of_lt hi, Nat.zero_add]
  · rw [block_get]
    exact ⟨hlt, rfl⟩

theorem filterMap_all {α β γ : Type} (l : List α) (f : α → Option β) (g : α → β) (h : ∀ a ∈ l, f a = some (g a)) (u : α → β → γ) :
    (l.filterMap fun p => (f p).map (u p)) = l.map fun p => u p (g p) := by
  induction l with
  | nil => rfl
  | cons a l ih =>
    rw [List.filterMap_cons, h a List.mem_cons_self, ih fun a ha => h a (List.mem_cons_of_mem _ ha)]
    rfl

/-- The block of rows `la` and columns `lb` of a dense index matrix. -/
def blockIdx (off n : ℕ) (la lb : List ℕ) : IMat :=
  .fill (.dense la.length lb.length) fun p => off + (lb.getD p.2 0 * n + la.getD p.1 0)

theorem getD_mem {l : List ℕ} {i : ℕ} (h : i < l.length) : l.getD i 0 ∈ l := by
  rw [List.getD_eq_getElem?_getD, List.getElem?_eq_getElem h]
  exact List.getElem_mem h

theorem getRC_block {F : Type} (off n m : ℕ) {a b : PIdx F} {la lb : List ℕ} (ha : selIdx n a = .ok la) (hb : selIdx m b = .ok lb)
    (hla : ∀ i ∈ la, i < n) (hlb : ∀ i ∈ lb, i < m) :
    getRC ⟨.dense n m, block off (n * m)⟩ a b = .ok (blockIdx off n la lb) := by
  rw [getRC]
  show Except.bind (selIdx n a) _ = _
  rw [ha]
  show Except.bind (selIdx m b) _ = _
  rw [hb]
  show Except.ok _ = _
  congr 1
  rw [subMat]
  have := filterMap_all (Sparsity.positions la.length lb.length)
    (fun p => (⟨.dense n m, block off (n * m)⟩ : IMat).nzAt (la.getD p.1 0, lb.getD p.2 0))
    (fun p => off + (lb.getD p.2 0 * n + la.getD p.1 0)) (by
      intro p hp
      have := Sparsity.mem_positions.1 hp
      exact block_nzAt off n m (hla _ (getD_mem this.1)) (hlb _ (getD_mem this.2))) (fun p v => (p, v))
  simp only [this, List.map_map]
  rw [blockIdx, SMat.fill, Sparsity.dense]
  simp only [SMat.mk.injEq, Sparsity.mk.injEq, true_and]
  exact ⟨by conv_rhs => rw [← List.map_id (Sparsity.positions _ _)]
            rfl, rfl⟩

theorem blockIdx_WF (off n : ℕ) (la lb : List ℕ) : (blockIdx off n la lb).WF := SMat.fill_WF (Sparsity.dense_canon _ _) _

theorem mem_blockIdx {off n : ℕ} {la lb : List ℕ} {k : ℕ} :
    k ∈ (blockIdx off n la lb).data ↔ ∃ i ∈ la, ∃ j ∈ lb, k = off + (j * n + i) := by
  rw [blockIdx, SMat.fill]
  simp only [List.mem_map, Sparsity.dense]
  constructor
  · rintro ⟨p, hp, rfl⟩
    have := Sparsity.mem_positions.1 hp
    exact ⟨_, getD_mem this.1, _, getD_mem this.2, rfl⟩
  · rintro ⟨i, hi, j, hj, rfl⟩
    obtain ⟨x, hx, rfl⟩ := List.getElem_of_mem hi
    obtain ⟨y, hy, rfl⟩ := List.getElem_of_mem hj
    exact ⟨(x, y), Sparsity.mem_positions.2 ⟨hx, hy⟩, by
      simp [List.getD_eq_getElem?_getD, List.getElem?_eq_getElem hx, List.getElem?_eq_getElem hy]⟩

theorem blockIdx_nodup {off n : ℕ} {la lb : List ℕ} (hla : ∀ i ∈ la, i < n) (ha : la.Nodup) (hb : lb.Nodup) :
    (blockIdx off n la lb).data.Nodup := by
  rw [blockIdx, SMat.fill]
  show ((Sparsity.positions la.length lb.length).map _).Nodup
  refine List.Nodup.map_on ?_ (Sparsity.positions_nodup _ _)
  rintro ⟨x, y⟩ hp ⟨x', y'⟩ hp' h
  have h1 := Sparsity.mem_positions.1 hp
  have h2 := Sparsity.mem_positions.1 hp'
  simp only at h1 h2 h
  have := lin_inj (hla _ (getD_mem h1.1)) (hla _ (getD_mem h2.1)) (by omega : lb.getD y 0 * n + la.getD x 0 =
    lb.getD y' 0 * n + la.getD x' 0)
  simp only [List.getD_eq_getElem?_getD, List.getElem?_eq_getElem h1.1, List.getElem?_eq_getElem h1.2,
    List.getElem?_eq_getElem h2.1, List.getElem?_eq_getElem h2.2, Option.getD_some] at this
  rw [(List.Nodup.getElem_inj_iff ha).1 this.1, (List.Nodup.getElem_inj_iff hb).1 this.2]

end CE.St
