import Verif.Struct.LemHeap
import Verif.Struct.PropsPrefix

/-! # Reading and writing for all contents at once

Reading is compared with the traversal for index matrices, writing with a traversal that only records what is written. -/

namespace CE.St

variable {V : Type}

/-! ## Reading -/

/-- A callable that does to matrices of values what it does to index matrices. -/
def PyFn.Same (f : PyFn V) : Prop :=
  ∀ (g : ℕ → V) (t : Tree IMat), f.onVal (t.map' (SMat.mapData g)) = (f.onIdx t).map fun i => .leaf (i.mapData g)

/-- The values at the positions in the result of `s.i[...]`. -/
def GRel (g : ℕ → V) (n : ℕ) (t : Tree (SMat V)) (t' : Tree IMat) : Prop :=
  t = t'.map' (SMat.mapData g) ∧ t'.All fun i => ∀ k ∈ i.data, k < n

theorem GRel.list {g : ℕ → V} {n : ℕ} {l l'} (h : List.Forall₂ (GRel g n) l l') : GRel g n (.list l) (.list l') := by
  suffices hs : l = Tree.map'.goList (SMat.mapData g) l' ∧ Tree.All.goList (fun i => ∀ k ∈ i.data, k < n) l' from
    ⟨by rw [Tree.map', ← hs.1], hs.2⟩
  induction h with
  | nil => exact ⟨rfl, trivial⟩
  | cons hxy _ ih => exact ⟨congrArg₂ List.cons hxy.1 ih.1, hxy.2, ih.2⟩

theorem GRel.dict {g : ℕ → V} {n : ℕ} {l : List (String × Tree (SMat V))} {l' : List (String × Tree IMat)}
    (h : List.Forall₂ (fun x y => x.1 = y.1 ∧ GRel g n x.2 y.2) l l') : GRel g n (.dict l) (.dict l') := by
  suffices hs : l = Tree.map'.goDict (SMat.mapData g) l' ∧ Tree.All.goDict (fun i => ∀ k ∈ i.data, k < n) l' from
    ⟨by rw [Tree.map', ← hs.1], hs.2⟩
  induction h with
  | nil => exact ⟨rfl, trivial⟩
  | @cons x y _ _ hxy _ ih =>
    obtain ⟨k, t⟩ := x
    obtain ⟨k', t'⟩ := y
    obtain ⟨h1, h2, h3⟩ := hxy
    simp only at h1 h2 h3
    exact ⟨by rw [Tree.map'.goDict, ← ih.1, ← h2, h1], h3, ih.2⟩

theorem getDisp_imDisp [Zero V] [Add V] [Sub V] {map : List (CIdx × IMat)} {master : List V}
    (hmap : ∀ c m, dictGet map c = some m → ∀ k ∈ m.data, k < master.length) :
    DRel (fun _ _ => True) (GRel (fun k => master.getD k 0) master.length) [] (fun f => f.Rearranges ∧ f.Same) (getDisp map [] master)
      (imDisp map) (fun p => p.symm = false) (fun _ => True) where
  ext _ _ _ := trivial
  list h := .list h
  dict h := .dict h
  call := by
    intro inner pay c x e _ hx he s s' _
    rw [List.nil_append]
    show RRel _ _ (getCall map [] master c x e, s) (imCall applyIdx map c x e, s')
    unfold getCall imCall
    cases hg : dictGet map c with
    | none => exact ⟨rfl, trivial⟩
    | some m =>
      simp only [dictGet_nil]
      have key : RRel (fun _ _ => True) (fun r r' => GRel (fun k => master.getD k 0) master.length (.leaf r) (.leaf r'))
          ((performExtraIndex applyIdx m e false (x.getD [])).bind fun i => (gather master i).bind .ok, s)
          (performExtraIndex applyIdx m e false (x.getD []), s') := by
        cases hi : performExtraIndex applyIdx m e false (x.getD []) with
        | error e => exact ⟨rfl, trivial⟩
        | ok i =>
          have hlt := performExtraIndex_mem (fun p hp f hf => (hx p hp f hf).1) (hmap c m hg) hi
          simp only [Except.bind, gather_ok hlt]
          exact ⟨⟨rfl, hlt⟩, trivial⟩
      rcases e with _ | ⟨sp, sy, orig, ss⟩
      · exact key
      · cases (he _ rfl : sy = false)
        exact key
  outer := by
    rintro inner f pay c c' _ r ⟨hf, hf'⟩ ⟨rfl, hr⟩ s s' _
    show RRel _ _ (f.onVal (r.map' (SMat.mapData fun k => master.getD k 0)), s) ((f.onIdx r).map Tree.leaf, s')
    rw [hf']
    cases hi : f.onIdx r with
    | error e => exact ⟨rfl, trivial⟩
    | ok i => exact ⟨⟨rfl, hf.mem hr hi⟩, trivial⟩

/-! ## Writing -/

/-- `assign` for a `master` of length `n` of which only the writes are known. -/
def logAssign [Zero V] (n : ℕ) (log : List (ℕ × V)) (i : IMat) (m : SMat V) : Except PyErr (List (ℕ × V)) :=
  if i.data.any (fun k => k ≥ n) then .error .runtime
  else if i.sp.rows = m.sp.rows ∧ i.sp.cols = m.sp.cols then .ok (log ++ i.data.zip (i.sp.nz.map m.at'))
  else if m.isScalar then .ok (log ++ i.data.map fun k => (k, m.at' (0, 0)))
  else if i.sp.rows = m.sp.cols ∧ i.sp.cols = m.sp.rows ∧ min m.sp.rows m.sp.cols = 1 then
    .ok (log ++ i.data.zip (i.sp.nz.map m.T.at'))
  else .error .runtime

theorem writeAll_append (m : List V) (l l' : List (ℕ × V)) : writeAll m (l ++ l') = writeAll (writeAll m l) l' := by
  induction l generalizing m with
  | nil => rfl
  | cons x l ih => rw [List.cons_append, writeAll, writeAll, ih]

theorem assign_log [Zero V] (m0 : List V) :
    ARel (fun (m : List V) log => m = writeAll m0 log) assign (logAssign (V := V) m0.length) := by
  rintro m log i v rfl
  unfold assign logAssign
  rw [writeAll_length]
  split
  · exact .inr ⟨_, rfl, rfl⟩
  split
  · exact .inl ⟨_, _, rfl, rfl, (writeAll_append _ _ _).symm⟩
  split
  · exact .inl ⟨_, _, rfl, rfl, (writeAll_append _ _ _).symm⟩
  split
  · exact .inl ⟨_, _, rfl, rfl, (writeAll_append _ _ _).symm⟩
  · exact .inr ⟨_, rfl, rfl⟩

/-- The last value that is written to a position. -/
def lastWrite (n : ℕ) : List (ℕ × V) → ℕ → Option V
  | [], _ => none
  | (k, v) :: l, j => (lastWrite n l j).or (if k = j ∧ j < n then some v else none)

theorem writeAll_lastWrite (m : List V) (l : List (ℕ × V)) (j : ℕ) : (writeAll m l)[j]? = (lastWrite m.length l j).or m[j]? := by
  induction l generalizing m with
  | nil => simp [writeAll, lastWrite]
  | cons x l ih =>
    rw [writeAll, ih, lastWrite, List.length_set, Option.or_assoc]
    congr 1
    rw [List.getElem?_set]
    by_cases hk : x.1 = j
    · by_cases hj : x.1 < m.length
      · rw [if_pos hk, if_pos hj, if_pos ⟨hk, hk ▸ hj⟩]
        simp
      · rw [if_pos hk, if_neg hj, if_neg (by rintro ⟨_, h⟩; exact hj (hk ▸ h)), ← hk, List.getElem?_eq_none (by omega)]
        rfl
    · rw [if_neg hk, if_neg (fun h => hk h.1)]
      simp

theorem lastWrite_ge (n : ℕ) (l : List (ℕ × V)) {j : ℕ} (hj : n ≤ j) : lastWrite n l j = none := by
  induction l with
  | nil => rfl
  | cons x l ih =>
    rw [lastWrite, ih, if_neg (by omega)]
    rfl

/-! ## Writing to some entries -/

/-- Index matrices for which `Q` holds. -/
def AllT (Q : IMat → Prop) (t t' : Tree (Option IMat)) : Prop := t = t' ∧ t.All fun o => ∀ i, o = some i → Q i

/-- Index matrices with positions in `P`. -/
def WithinT (P : ℕ → Prop) : Tree (Option IMat) → Tree (Option IMat) → Prop := AllT fun i => ∀ k ∈ i.data, P k

theorem AllT.list {Q : IMat → Prop} {l l'} (h : List.Forall₂ (AllT Q) l l') : AllT Q (.list l) (.list l') := by
  suffices hs : l = l' ∧ Tree.All.goList (fun o => ∀ i, o = some i → Q i) l from ⟨by rw [hs.1], hs.2⟩
  induction h with
  | nil => exact ⟨rfl, trivial⟩
  | cons hxy _ ih => exact ⟨congrArg₂ List.cons hxy.1 ih.1, hxy.2, ih.2⟩

theorem AllT.dict {Q : IMat → Prop} {l l' : List (String × Tree (Option IMat))}
    (h : List.Forall₂ (fun x y => x.1 = y.1 ∧ AllT Q x.2 y.2) l l') : AllT Q (.dict l) (.dict l') := by
  suffices hs : l = l' ∧ Tree.All.goDict (fun o => ∀ i, o = some i → Q i) l from ⟨by rw [hs.1], hs.2⟩
  induction h with
  | nil => exact ⟨rfl, trivial⟩
  | @cons x y _ _ hxy _ ih => exact ⟨congrArg₂ List.cons (Prod.ext hxy.1 hxy.2.1) ih.1, hxy.2.2, ih.2⟩

mutual
theorem mapM'_within {Q : IMat → Prop} : ∀ {t : Tree (Option IMat)} {r : Tree IMat},
    (t.All fun o => ∀ i, o = some i → Q i) → t.mapM' theIdx = .ok r → r.All Q
  | .leaf none, _, _, h => by cases h
  | .leaf (some i), _, ht, h => by cases h; exact ht i rfl
  | .list l, _, ht, h => by
    rw [Tree.mapM'] at h
    cases hl : Tree.mapM'.goList theIdx l with
    | error e => rw [hl] at h; cases h
    | ok r => rw [hl] at h; cases h; exact mapM'_goList_within ht hl
  | .dict l, _, ht, h => by
    rw [Tree.mapM'] at h
    cases hl : Tree.mapM'.goDict theIdx l with
    | error e => rw [hl] at h; cases h
    | ok r => rw [hl] at h; cases h; exact mapM'_goDict_within ht hl
theorem mapM'_goList_within {Q : IMat → Prop} : ∀ {l : List (Tree (Option IMat))} {r : List (Tree IMat)},
    Tree.All.goList (fun o => ∀ i, o = some i → Q i) l → Tree.mapM'.goList theIdx l = .ok r →
      Tree.All.goList Q r
  | [], _, _, h => by cases h; trivial
  | t :: l, _, ht, h => by
    rw [Tree.mapM'.goList] at h
    cases h1 : t.mapM' theIdx with
    | error e => rw [h1] at h; cases h
    | ok r1 =>
      rw [h1] at h
      cases h2 : Tree.mapM'.goList theIdx l with
      | error e => rw [h2] at h; cases h
      | ok r2 => rw [h2] at h; cases h; exact ⟨mapM'_within ht.1 h1, mapM'_goList_within ht.2 h2⟩
theorem mapM'_goDict_within {Q : IMat → Prop} : ∀ {l : List (String × Tree (Option IMat))} {r : List (String × Tree IMat)},
    Tree.All.goDict (fun o => ∀ i, o = some i → Q i) l → Tree.mapM'.goDict theIdx l = .ok r →
      Tree.All.goDict Q r
  | [], _, _, h => by cases h; trivial
  | (k, t) :: l, _, ht, h => by
    rw [Tree.mapM'.goDict] at h
    cases h1 : t.mapM' theIdx with
    | error e => rw [h1] at h; cases h
    | ok r1 =>
      rw [h1] at h
      cases h2 : Tree.mapM'.goDict theIdx l with
      | error e => rw [h2] at h; cases h
      | ok r2 => rw [h2] at h; cases h; exact ⟨mapM'_within ht.1 h1, mapM'_goDict_within ht.2 h2⟩
end

/-- The contents differ at positions in `P` only. -/
def FrameS (P : ℕ → Prop) (m0 m m' : List V) : Prop := m = m' ∧ ∀ k, ¬ P k → m[k]? = m0[k]?

theorem assign_frame [Zero V] {P : ℕ → Prop} {m0 m m1 : List V} {i : IMat} {v : SMat V} (h : FrameS P m0 m m)
    (hi : ∀ k ∈ i.data, P k) (ha : assign m i v = .ok m1) : FrameS P m0 m1 m1 := by
  refine ⟨rfl, fun k hk => ?_⟩
  rw [← h.2 k hk]
  have key : ∀ l : List (ℕ × V), (∀ x ∈ l, x.1 ∈ i.data) → (writeAll m l)[k]? = m[k]? := by
    intro l hl
    apply writeAll_notin
    intro hm
    obtain ⟨x, hx, rfl⟩ := List.mem_map.1 hm
    exact hk (hi _ (hl x hx))
  unfold assign at ha
  split at ha
  · cases ha
  split at ha
  · cases ha
    exact key _ fun x hx => (List.of_mem_zip (a := x.1) (b := x.2) hx).1
  split at ha
  · cases ha
    refine key _ fun x hx => ?_
    obtain ⟨y, hy, rfl⟩ := List.mem_map.1 hx
    exact hy
  split at ha
  · cases ha
    exact key _ fun x hx => (List.of_mem_zip (a := x.1) (b := x.2) hx).1
  · cases ha

theorem setDispOn_frame [Zero V] {P : ℕ → Prop} {C : CIdx → Prop} (hC : ∀ c k, C c → C (c ++ [k])) {map : List (CIdx × IMat)}
    (hP : ∀ c m, C c → dictGet map c = some m → ∀ k ∈ m.data, P k) (m0 : List V) :
    DRel (FrameS P m0) (WithinT P) [] PyFn.Rearranges (setDispOn assign map) (setDispOn assign map) (fun _ => True) C where
  ext := hC
  list h := AllT.list h
  dict h := AllT.dict h
  call := by
    intro inner pay c x e hc hx _
    rw [List.nil_append]
    simp only [setDispOn]
    split
    · intro s s' hs
      show RRel _ _ ((imCall applyIdx map c x e).map some, s) ((imCall applyIdx map c x e).map some, s')
      cases hi : imCall applyIdx map c x e with
      | error e => exact ⟨rfl, hs⟩
      | ok i =>
        refine ⟨⟨rfl, ?_⟩, hs⟩
        rintro _ ⟨⟩
        unfold imCall at hi
        cases hg : dictGet map c with
        | none => rw [hg] at hi; cases hi
        | some m => rw [hg] at hi; exact performExtraIndex_mem hx (hP c m hc hg) hi
    · refine (setCallOn_relOn (Q := fun i => ∀ k ∈ i.data, P k) ?_ map pay c x e ?_).bind fun _ _ _ =>
        MRel.pure ⟨rfl, fun i hi => by cases hi⟩
      · rintro s _ i m hi ⟨rfl, hs⟩
        cases ha : assign s i m with
        | error e => exact .inr ⟨_, rfl, rfl⟩
        | ok u => exact .inl ⟨u, u, rfl, rfl, assign_frame ⟨rfl, hs⟩ hi ha⟩
      · exact fun m hm flip r hr => performExtraIndex_mem hx (hP c m hc hm) hr
  outer := by
    rintro inner f pay c c' r _ hf ⟨rfl, hr⟩ s _ ⟨rfl, hs⟩
    simp only [setDispOn]
    cases ht : r.mapM' theIdx with
    | error e => exact ⟨rfl, rfl, hs⟩
    | ok t =>
      simp only
      cases hi : f.onIdx t with
      | error e => exact ⟨rfl, rfl, hs⟩
      | ok i =>
        have hm := hf.mem (mapM'_within hr ht) hi
        simp only
        cases inner with
        | true =>
          refine ⟨⟨rfl, ?_⟩, rfl, hs⟩
          rintro _ ⟨⟩
          exact hm
        | false =>
          simp only [Bool.false_eq_true, if_false]
          cases pay.toMat with
          | error e => exact ⟨rfl, rfl, hs⟩
          | ok v =>
            simp only
            cases ha : assign s i v with
            | error e => exact ⟨rfl, rfl, hs⟩
            | ok u => exact ⟨⟨rfl, fun i hi => by cases hi⟩, assign_frame ⟨rfl, hs⟩ hm ha⟩

end CE.St
