import Verif.Struct.LemPrefix

/-! # Dispatchers below a nested struct -/

namespace CE.St

variable {V : Type}

theorem applyIdx_mapData (g : ℕ → ℕ) (f : PyFn V) (hf : f.Rearranges) (t : Tree IMat) :
    applyIdx f (t.map' (SMat.mapData g)) = (applyIdx f t).map (SMat.mapData g) := hf g t

theorem performExtraIndex_mem {i : IMat} {entry : Option Prim} {flip : Bool} {x : List (PIdx (PyFn V))}
    (hx : Fns PyFn.Rearranges x) {P : ℕ → Prop} (hi : ∀ k ∈ i.data, P k) {r : IMat}
    (hr : performExtraIndex applyIdx i entry flip x = .ok r) : ∀ k ∈ r.data, P k := by
  classical
  have h := performExtraIndex_mapData applyIdx PyFn.Rearranges (fun k => if P k then k else k + 1)
    (fun f hf t => applyIdx_mapData _ f hf t) i entry flip x hx
  rw [SMat.mapData_eq_self fun k hk => if_pos (hi k hk), hr] at h
  have h1 : r = r.mapData _ := Except.ok.inj h
  intro k hk
  have h2 := SMat.fixed_of_mapData h1.symm k hk
  by_contra hP
  simp only [if_neg hP] at h2
  omega

theorem gather_shift (pre sub post : List V) {i : IMat} (hi : ∀ k ∈ i.data, k < sub.length) :
    gather (pre ++ sub ++ post) (i.mapData (pre.length + ·)) = gather sub i := by
  have key : ∀ l : List ℕ, (∀ k ∈ l, k < sub.length) →
      (l.map (pre.length + ·)).mapM (masterAt (pre ++ sub ++ post)) = l.mapM (masterAt sub) := by
    intro l
    induction l with
    | nil => intro _; rfl
    | cons k l ih =>
      intro h
      have hk := h k List.mem_cons_self
      rw [List.map_cons, List.mapM_cons, List.mapM_cons, ih fun b hb => h b (List.mem_cons_of_mem _ hb), masterAt, masterAt]
      have : (pre ++ sub ++ post)[pre.length + k]? = sub[k]? := by
        rw [List.append_assoc, List.getElem?_append_right (by omega), Nat.add_sub_cancel_left, List.getElem?_append_left hk]
      rw [this]
  rw [gather, gather, SMat.mapData]
  simp only
  rw [key _ hi]

theorem set_shift (pre sub post : List V) {k : ℕ} (hk : k < sub.length) (v : V) :
    (pre ++ sub ++ post).set (pre.length + k) v = pre ++ sub.set k v ++ post := by
  rw [List.append_assoc, List.set_append_right _ _ (by omega), Nat.add_sub_cancel_left, List.set_append_left _ _ hk,
    List.append_assoc]

theorem writeAll_shift (pre post : List V) : ∀ (l : List (ℕ × V)) (sub : List V), (∀ x ∈ l, x.1 < sub.length) →
    writeAll (pre ++ sub ++ post) (l.map fun x => (pre.length + x.1, x.2)) = pre ++ writeAll sub l ++ post := by
  intro l
  induction l with
  | nil => intro sub _; rfl
  | cons x l ih =>
    intro sub h
    rw [List.map_cons, writeAll, writeAll, set_shift _ _ _ (h x List.mem_cons_self),
      ih _ fun y hy => by rw [List.length_set]; exact h y (List.mem_cons_of_mem _ hy)]

theorem zip_map_fst {α β γ : Type} (g : α → β) (l : List α) (l' : List γ) :
    (l.map g).zip l' = (l.zip l').map fun x => (g x.1, x.2) := by
  rw [List.zip_map_left]
  rfl

section
variable [Zero V]

theorem assign_length {master : List V} {i : IMat} {m : SMat V} {r : List V} (h : assign master i m = .ok r) :
    r.length = master.length := by
  unfold assign at h
  split at h
  · cases h
  · split at h
    · cases h; exact writeAll_length _ _
    · split at h
      · cases h; exact writeAll_length _ _
      · split at h
        · cases h; exact writeAll_length _ _
        · cases h

theorem assign_shift (pre sub post : List V) {i : IMat} (hi : ∀ k ∈ i.data, k < sub.length) (m : SMat V) :
    assign (pre ++ sub ++ post) (i.mapData (pre.length + ·)) m = (assign sub i m).map fun s => pre ++ s ++ post := by
  have hz : ∀ l : List V, writeAll (pre ++ sub ++ post) ((i.data.map (pre.length + ·)).zip l) =
      pre ++ writeAll sub (i.data.zip l) ++ post := by
    intro l
    rw [zip_map_fst, writeAll_shift]
    rintro ⟨k, v⟩ hx
    exact hi k (List.of_mem_zip hx).1
  have h1 : (i.data.map (pre.length + ·)).any (fun k => decide (k ≥ (pre ++ sub ++ post).length)) = false := by
    rw [List.any_eq_false]
    intro k hk
    obtain ⟨j, hj, rfl⟩ := List.mem_map.1 hk
    have := hi j hj
    simp only [decide_eq_true_eq, List.length_append]; omega
  have h2 : i.data.any (fun k => decide (k ≥ sub.length)) = false := by
    rw [List.any_eq_false]
    intro k hk
    have := hi k hk
    simp only [decide_eq_true_eq]; omega
  obtain ⟨sp, dat⟩ := i
  show assign _ ⟨sp, dat.map (pre.length + ·)⟩ m = _
  simp only at h1 h2 hz hi
  unfold assign
  simp only
  rw [if_neg (by rw [h1]; simp), if_neg (c := (dat.any fun k => decide (k ≥ sub.length)) = true) (by rw [h2]; simp)]
  by_cases h3 : sp.rows = m.sp.rows ∧ sp.cols = m.sp.cols
  · rw [if_pos h3, if_pos h3, hz]; rfl
  · rw [if_neg h3, if_neg h3]
    by_cases h4 : m.isScalar = true
    · rw [if_pos h4, if_pos h4, List.map_map]
      have : (dat.map ((fun k => (k, m.at' (0, 0))) ∘ (pre.length + ·))) =
          (dat.map fun k => (k, m.at' (0, 0))).map fun x => (pre.length + x.1, x.2) := by
        rw [List.map_map]; rfl
      rw [this, writeAll_shift]
      · rfl
      · rintro x hx
        obtain ⟨k, hk, rfl⟩ := List.mem_map.1 hx
        exact hi k hk
    · rw [if_neg h4, if_neg h4]
      by_cases h5 : sp.rows = m.sp.cols ∧ sp.cols = m.sp.rows ∧ min m.sp.rows m.sp.cols = 1
      · rw [if_pos h5, if_pos h5, hz]; rfl
      · rw [if_neg h5, if_neg h5]; rfl

end

/-- Everything known about the two maps. -/
structure Moved (c c' : CS) (a : CIdx) (off : ℕ) : Prop where
  get : ∀ d, d ≠ [] → dictGet c.map (a ++ d) = (dictGet c'.map d).map (SMat.mapData (off + ·))
  lt : ∀ d m, dictGet c'.map d = some m → ∀ k ∈ m.data, k < c'.size

theorem MRel.of_eq {σ α : Type} {x y : M σ α} (h : x = y) : MRel (· = ·) (· = ·) x y := by
  rintro s _ rfl
  rw [h]
  rcases y s with ⟨r, u⟩
  cases r <;> exact ⟨rfl, rfl⟩

theorem getCall_moved [Zero V] [Add V] [Sub V] {c c' : CS} {a : CIdx} {pre sub post : List V} (h : Moved c c' a pre.length)
    (hl : sub.length = c'.size) (d : CIdx) (hd : d ≠ []) (x : Option (List (PIdx (PyFn V)))) (hx : Fns PyFn.Rearranges (x.getD []))
    (e : Option Prim) :
    getCall c.map [] (pre ++ sub ++ post) (a ++ d) x e = getCall c'.map [] sub d x e := by
  unfold getCall
  rw [h.get d hd]
  cases hm : dictGet c'.map d with
  | none => rfl
  | some m =>
    have hlt := h.lt d m hm
    simp only [Option.map_some, dictGet, List.lookup_nil]
    rw [performExtraIndex_mapData applyIdx PyFn.Rearranges (pre.length + ·) (fun f hf t => applyIdx_mapData _ f hf t) m e false _ hx]
    cases hr : performExtraIndex applyIdx m e false (x.getD []) with
    | error e => rfl
    | ok i =>
      simp only [Except.map, Except.bind]
      rw [gather_shift _ _ _ (by rw [hl]; exact performExtraIndex_mem hx hlt hr)]

/-- Reading below a nested struct. -/
theorem getDisp_rel [Zero V] [Add V] [Sub V] {c c' : CS} {a : CIdx} {pre sub post : List V} (h : Moved c c' a pre.length)
    (hl : sub.length = c'.size) :
    DRel (· = ·) (· = ·) a PyFn.Rearranges (getDisp c.map [] (pre ++ sub ++ post)) (getDisp c'.map [] sub) where
  list {l l'} hll := by
    rw [List.forall₂_eq_eq_eq] at hll
    rw [hll]
  dict {l l'} hll := by
    congr 1
    induction hll with
    | nil => rfl
    | cons hxy _ ih => rw [ih, Prod.ext hxy.1 hxy.2]
  call inner pay d x e hd hx _ := by
    intro s s' hs
    cases hs
    show RRel _ _ (getCall c.map [] (pre ++ sub ++ post) (a ++ d) x e, s) (getCall c'.map [] sub d x e, s)
    rw [getCall_moved h hl d hd x hx e]
    cases getCall c'.map [] sub d x e <;> exact ⟨rfl, rfl⟩
  outer inner f pay d d' r r' _ hr := by
    cases hr
    exact MRel.of_eq rfl

/-- Related results of writing: index matrices moved, inside the part. -/
def WRel (off n : ℕ) (t t' : Tree (Option IMat)) : Prop :=
  t = t'.map' (Option.map (SMat.mapData (off + ·))) ∧ t'.All fun o => ∀ i, o = some i → ∀ k ∈ i.data, k < n

theorem WRel.list {off n : ℕ} {l l' : List (Tree (Option IMat))} (h : List.Forall₂ (WRel off n) l l') :
    WRel off n (.list l) (.list l') := by
  suffices hs : l = Tree.map'.goList (Option.map (SMat.mapData (off + ·))) l' ∧
      Tree.All.goList (fun o => ∀ i, o = some i → ∀ k ∈ i.data, k < n) l' from ⟨by rw [Tree.map', ← hs.1], hs.2⟩
  induction h with
  | nil => exact ⟨rfl, trivial⟩
  | cons hxy _ ih => exact ⟨congrArg₂ List.cons hxy.1 ih.1, hxy.2, ih.2⟩

theorem WRel.dict {off n : ℕ} {l l' : List (String × Tree (Option IMat))}
    (h : List.Forall₂ (fun x y => x.1 = y.1 ∧ WRel off n x.2 y.2) l l') : WRel off n (.dict l) (.dict l') := by
  suffices hs : l = Tree.map'.goDict (Option.map (SMat.mapData (off + ·))) l' ∧
      Tree.All.goDict (fun o => ∀ i, o = some i → ∀ k ∈ i.data, k < n) l' from ⟨by rw [Tree.map', ← hs.1], hs.2⟩
  induction h with
  | nil => exact ⟨rfl, trivial⟩
  | @cons x y _ _ hxy _ ih =>
    obtain ⟨k, t⟩ := x
    obtain ⟨k', t'⟩ := y
    obtain ⟨h1, h2, h3⟩ := hxy
    simp only at h1 h2 h3
    exact ⟨by rw [Tree.map'.goDict, ← ih.1, ← h2, h1], h3, ih.2⟩

/-- The index matrices in a result. -/
abbrev theIdx : Option IMat → Except PyErr IMat := fun
  | some i => Except.ok i
  | none => .error .type

mutual
theorem mapM'_shift (off n : ℕ) : ∀ t : Tree (Option IMat), (t.All fun o => ∀ i, o = some i → ∀ k ∈ i.data, k < n) →
    (t.map' (Option.map (SMat.mapData (off + ·)))).mapM' theIdx = (t.mapM' theIdx).map (Tree.map' (SMat.mapData (off + ·))) ∧
      ∀ r, t.mapM' theIdx = .ok r → r.All fun i => ∀ k ∈ i.data, k < n
  | .leaf none, _ => ⟨rfl, by intro r h; cases h⟩
  | .leaf (some i), h => ⟨rfl, by intro r hr; cases hr; exact h i rfl⟩
  | .list l, h => by
    obtain ⟨h1, h2⟩ := mapM'_goList_shift off n l h
    rw [Tree.map', Tree.mapM', Tree.mapM', h1]
    refine ⟨by cases Tree.mapM'.goList theIdx l <;> rfl, ?_⟩
    intro r hr
    cases hg : Tree.mapM'.goList theIdx l with
    | error e => rw [hg] at hr; cases hr
    | ok l' => rw [hg] at hr; cases hr; exact h2 l' hg
  | .dict l, h => by
    obtain ⟨h1, h2⟩ := mapM'_goDict_shift off n l h
    rw [Tree.map', Tree.mapM', Tree.mapM', h1]
    refine ⟨by cases Tree.mapM'.goDict theIdx l <;> rfl, ?_⟩
    intro r hr
    cases hg : Tree.mapM'.goDict theIdx l with
    | error e => rw [hg] at hr; cases hr
    | ok l' => rw [hg] at hr; cases hr; exact h2 l' hg
theorem mapM'_goList_shift (off n : ℕ) : ∀ l : List (Tree (Option IMat)),
    Tree.All.goList (fun o => ∀ i, o = some i → ∀ k ∈ i.data, k < n) l →
    Tree.mapM'.goList theIdx (Tree.map'.goList (Option.map (SMat.mapData (off + ·))) l) =
      (Tree.mapM'.goList theIdx l).map (Tree.map'.goList (SMat.mapData (off + ·))) ∧
      ∀ r, Tree.mapM'.goList theIdx l = .ok r → Tree.All.goList (fun i => ∀ k ∈ i.data, k < n) r
  | [], _ => ⟨rfl, by intro r h; cases h; trivial⟩
  | t :: l, h => by
    obtain ⟨h1, h2⟩ := mapM'_shift off n t h.1
    obtain ⟨h3, h4⟩ := mapM'_goList_shift off n l h.2
    rw [Tree.map'.goList, Tree.mapM'.goList, Tree.mapM'.goList, h1, h3]
    cases ht : t.mapM' theIdx with
    | error e => exact ⟨rfl, by intro r hr; cases hr⟩
    | ok t' => cases hl : Tree.mapM'.goList theIdx l with
      | error e => exact ⟨rfl, by intro r hr; cases hr⟩
      | ok l' => exact ⟨rfl, by intro r hr; cases hr; exact ⟨h2 t' ht, h4 l' hl⟩⟩
theorem mapM'_goDict_shift (off n : ℕ) : ∀ l : List (String × Tree (Option IMat)),
    Tree.All.goDict (fun o => ∀ i, o = some i → ∀ k ∈ i.data, k < n) l →
    Tree.mapM'.goDict theIdx (Tree.map'.goDict (Option.map (SMat.mapData (off + ·))) l) =
      (Tree.mapM'.goDict theIdx l).map (Tree.map'.goDict (SMat.mapData (off + ·))) ∧
      ∀ r, Tree.mapM'.goDict theIdx l = .ok r → Tree.All.goDict (fun i => ∀ k ∈ i.data, k < n) r
  | [], _ => ⟨rfl, by intro r h; cases h; trivial⟩
  | (k, t) :: l, h => by
    obtain ⟨h1, h2⟩ := mapM'_shift off n t h.1
    obtain ⟨h3, h4⟩ := mapM'_goDict_shift off n l h.2
    rw [Tree.map'.goDict, Tree.mapM'.goDict, Tree.mapM'.goDict, h1, h3]
    cases ht : t.mapM' theIdx with
    | error e => exact ⟨rfl, by intro r hr; cases hr⟩
    | ok t' => cases hl : Tree.mapM'.goDict theIdx l with
      | error e => exact ⟨rfl, by intro r hr; cases hr⟩
      | ok l' => exact ⟨rfl, by intro r hr; cases hr; exact ⟨h2 t' ht, h4 l' hl⟩⟩
end

/-- A `master` with a part `sub` of the given size. -/
def InPart (pre post : List V) (n : ℕ) (master sub : List V) : Prop := master = pre ++ sub ++ post ∧ sub.length = n

theorem imCall_moved {c c' : CS} {a : CIdx} {off : ℕ} (h : Moved c c' a off) (d : CIdx) (hd : d ≠ [])
    (x : Option (List (PIdx (PyFn V)))) (hx : Fns PyFn.Rearranges (x.getD [])) (e : Option Prim) :
    imCall applyIdx c.map (a ++ d) x e = (imCall applyIdx c'.map d x e).map (SMat.mapData (off + ·)) ∧
      ∀ i, imCall applyIdx c'.map d x e = .ok i → ∀ k ∈ i.data, k < c'.size := by
  rw [imCall, imCall, h.get d hd]
  cases hm : dictGet c'.map d with
  | none => exact ⟨rfl, by intro i hi; cases hi⟩
  | some m =>
    refine ⟨performExtraIndex_mapData applyIdx PyFn.Rearranges (off + ·) (fun f hf t => applyIdx_mapData _ f hf t) m e false _ hx, ?_⟩
    intro i hi
    exact performExtraIndex_mem hx (h.lt d m hm) hi

section
variable [Zero V]

theorem setCall_moved {c c' : CS} {a : CIdx} {pre post : List V} (h : Moved c c' a pre.length)
    (pay : Pay V) (d : CIdx) (hd : d ≠ []) (x : Option (List (PIdx (PyFn V)))) (hx : Fns PyFn.Rearranges (x.getD []))
    (e : Option Prim) :
    MRel (InPart pre post c'.size) (fun _ _ => True) (setCall c.map pay (a ++ d) x e) (setCall c'.map pay d x e) := by
  rintro master sub ⟨rfl, hl⟩
  have hperf := fun (m : IMat) (fl : Bool) => performExtraIndex_mapData applyIdx PyFn.Rearranges (pre.length + ·)
    (fun f hf t => applyIdx_mapData _ f hf t) m e fl (x.getD []) hx
  rw [setCall, setCall]
  cases pay.toMat with
  | error er => exact ⟨rfl, rfl, hl⟩
  | ok m =>
    rw [h.get d hd]
    cases hm : dictGet c'.map d with
    | none => exact ⟨rfl, rfl, hl⟩
    | some idx =>
      have hlt := h.lt d idx hm
      simp only [Option.map_some]
      rw [hperf]
      cases hi : performExtraIndex applyIdx idx e false (x.getD []) with
      | error er => exact ⟨rfl, rfl, hl⟩
      | ok i =>
        have hil : ∀ k ∈ i.data, k < c'.size := performExtraIndex_mem hx hlt hi
        simp only [Except.map]
        have hplain : RRel (InPart pre post c'.size) (fun _ _ => True)
            (match assign (pre ++ sub ++ post) (i.mapData (pre.length + ·)) m with
              | .error e => (.error e, (pre ++ sub ++ post))
              | .ok master => ((.ok () : Except PyErr Unit), master))
            (match assign sub i m with
              | .error e => (.error e, sub)
              | .ok master => ((.ok () : Except PyErr Unit), master)) := by
          rw [assign_shift _ _ _ (by rw [hl]; exact hil)]
          cases has : assign sub i m with
          | error er => exact ⟨rfl, rfl, hl⟩
          | ok s => exact ⟨trivial, rfl, (assign_length has).trans hl⟩
        cases e with
        | none => exact hplain
        | some p =>
          obtain ⟨psp, psymm, porig, pss⟩ := p
          cases psymm with
          | false => exact hplain
          | true =>
            simp only
            rw [hperf]
            cases hf : performExtraIndex applyIdx idx (some ⟨psp, true, porig, pss⟩) true (x.getD []) with
            | error er => exact ⟨rfl, rfl, hl⟩
            | ok iflip =>
              have hfl : ∀ k ∈ iflip.data, k < c'.size := performExtraIndex_mem hx hlt hf
              simp only [Except.map]
              split
              · rw [assign_shift _ _ _ (by rw [hl]; exact hil)]
                cases has : assign sub i m with
                | error er => exact ⟨rfl, rfl, hl⟩
                | ok s =>
                  have hsl := (assign_length has).trans hl
                  simp only [Except.map]
                  rw [assign_shift _ _ _ (by rw [hsl]; exact hfl)]
                  cases has2 : assign s iflip m with
                  | error er => exact ⟨rfl, rfl, hsl⟩
                  | ok s2 => exact ⟨trivial, rfl, (assign_length has2).trans hsl⟩
              · cases porig with
                | none => exact ⟨rfl, rfl, hl⟩
                | some osp =>
                  simp only
                  cases performExtraIndex applyIdx ⟨osp, osp.nz.map fun _ => 1⟩ (some ⟨psp, true, some osp, pss⟩) false (x.getD []) with
                  | error er => exact ⟨rfl, rfl, hl⟩
                  | ok oi =>
                    simp only
                    split
                    · exact ⟨rfl, rfl, hl⟩
                    · show RRel _ _ (if iflip.sp.rows ≠ m.sp.cols ∨ iflip.sp.cols ≠ m.sp.rows then _ else _) _
                      split
                      · exact ⟨rfl, rfl, hl⟩
                      · show RRel _ _ (match assign (pre ++ sub ++ post) (iflip.mapData (pre.length + ·)) (m.T.project iflip.sp) with
                          | .error e => _
                          | .ok master => _) _
                        rw [assign_shift _ _ _ (by rw [hl]; exact hfl)]
                        cases has : assign sub iflip (m.T.project iflip.sp) with
                        | error er => exact ⟨rfl, rfl, hl⟩
                        | ok s =>
                          have hsl := (assign_length has).trans hl
                          simp only [Except.map]
                          show RRel _ _ (if i.sp.rows ≠ m.sp.rows ∨ i.sp.cols ≠ m.sp.cols then _ else _) _
                          split
                          · exact ⟨rfl, rfl, hsl⟩
                          · show RRel _ _ (match assign (pre ++ s ++ post) (i.mapData (pre.length + ·)) (m.project i.sp) with
                              | .error e => _
                              | .ok master => _) _
                            rw [assign_shift _ _ _ (by rw [hsl]; exact hil)]
                            cases has2 : assign s i (m.project i.sp) with
                            | error er => exact ⟨rfl, rfl, hsl⟩
                            | ok s2 => exact ⟨trivial, rfl, (assign_length has2).trans hsl⟩

/-- Writing below a nested struct. -/
theorem setDisp_rel {c c' : CS} {a : CIdx} {pre post : List V} (h : Moved c c' a pre.length) :
    DRel (InPart pre post c'.size) (WRel pre.length c'.size) a PyFn.Rearranges (setDisp (V := V) c.map) (setDisp c'.map) where
  list := WRel.list
  dict := WRel.dict
  call inner pay d x e hd hx _ := by
    cases inner with
    | true =>
      rintro master sub hs
      obtain ⟨h1, h2⟩ := imCall_moved h d hd x hx e
      show RRel _ _ ((imCall applyIdx c.map (a ++ d) x e).map some, master) ((imCall applyIdx c'.map d x e).map some, sub)
      rw [h1]
      cases hi : imCall applyIdx c'.map d x e with
      | error er => exact ⟨rfl, hs⟩
      | ok i => exact ⟨⟨rfl, by intro j hj; cases hj; exact h2 i hi⟩, hs⟩
    | false =>
      exact (setCall_moved h pay d hd x hx e).bind fun _ _ _ => MRel.pure ⟨rfl, by intro i hi; cases hi⟩
  outer inner f pay d d' r r' hf hr := by
    rintro master sub hs
    obtain ⟨rfl, hr⟩ := hr
    obtain ⟨h1, h2⟩ := mapM'_shift pre.length c'.size r' hr
    show RRel _ _ (match (r'.map' (Option.map (SMat.mapData (pre.length + ·)))).mapM' theIdx with
      | .error e => (.error e, master)
      | .ok t => _) (match r'.mapM' theIdx with
      | .error e => (.error e, sub)
      | .ok t => _)
    rw [h1]
    cases ht : r'.mapM' theIdx with
    | error er => exact ⟨rfl, hs⟩
    | ok t =>
      simp only [Except.map]
      rw [hf]
      cases hi : f.onIdx t with
      | error er => exact ⟨rfl, hs⟩
      | ok i =>
        have hil := hf.mem (h2 t ht) hi
        simp only [Except.map]
        cases inner with
        | true => exact ⟨⟨rfl, by intro j hj; cases hj; exact hil⟩, hs⟩
        | false =>
          cases pay.toMat with
          | error er => exact ⟨rfl, hs⟩
          | ok m =>
            obtain ⟨rfl, hl⟩ := hs
            simp only [Bool.false_eq_true, if_false]
            rw [assign_shift _ _ _ (by rw [hl]; exact hil)]
            cases has : assign sub i m with
            | error er => exact ⟨rfl, rfl, hl⟩
            | ok s => exact ⟨⟨rfl, by intro i hi; cases hi⟩, rfl, (assign_length has).trans hl⟩

end

end CE.St
