import Verif.Struct.LemAcc
import Verif.Struct.PropsLayout2

/-! # Reading and writing entries: C43, C44 -/

namespace CE.St

variable {V : Type}

theorem mapM_toNum {V : Type} {l : List (Pay V)} {vs : List V} : l.mapM Pay.toNum = .ok vs ↔ l = vs.map .num := by
  induction l generalizing vs with
  | nil =>
    constructor
    · intro h; cases h; rfl
    · intro h
      cases vs with
      | nil => rfl
      | cons => cases h
  | cons p l ih =>
    rw [List.mapM_cons]
    constructor
    · intro h
      cases p with
      | num v =>
        cases hl : l.mapM Pay.toNum with
        | error e => rw [hl] at h; cases h
        | ok ws =>
          rw [hl] at h
          cases h
          rw [ih.1 hl]
          rfl
      | _ => cases h
    · intro h
      cases vs with
      | nil => cases h
      | cons v vs =>
        rw [List.map_cons, List.cons.injEq] at h
        obtain ⟨rfl, h2⟩ := h
        rw [ih.2 h2]
        rfl

theorem mapM_toRow {l : List (Pay V)} {L : List (List V)} :
    l.mapM Pay.toRow = .ok L ↔ l = L.map fun r => .list (r.map .num) := by
  induction l generalizing L with
  | nil =>
    constructor
    · intro h; cases h; rfl
    · intro h
      cases L with
      | nil => rfl
      | cons => cases h
  | cons p l ih =>
    rw [List.mapM_cons]
    constructor
    · intro h
      cases p with
      | list q =>
        rw [Pay.toRow] at h
        cases hq : q.mapM Pay.toNum with
        | error e => rw [hq] at h; cases h
        | ok r =>
          rw [hq] at h
          cases hl : l.mapM Pay.toRow with
          | error e => rw [hl] at h; cases h
          | ok ws =>
            rw [hl] at h
            cases h
            rw [ih.1 hl, mapM_toNum.1 hq]
            rfl
      | _ => cases h
    · intro h
      cases L with
      | nil => cases h
      | cons v vs =>
        rw [List.map_cons, List.cons.injEq] at h
        obtain ⟨rfl, h2⟩ := h
        rw [ih.2 h2, Pay.toRow, mapM_toNum.2 rfl]
        rfl

/-- The columns of a matrix given by rows, one after another. -/
theorem rows_data (L : List (List V)) (n : ℕ) (hL : ∀ r ∈ L, r.length = n) (d : List V) :
    d = ((Sparsity.positions L.length n).filterMap fun p => (L[p.1]?).bind (·[p.2]?)) ↔
      d.length = L.length * n ∧ ∀ i < L.length, ∀ j < n, d[j * L.length + i]? = (L[i]?).bind (·[j]?) := by
  have hsome : ∀ i < L.length, ∀ j < n, ∃ v, (L[i]?).bind (·[j]?) = some v := by
    intro i hi j hj
    rw [List.getElem?_eq_getElem hi]
    have : j < (L[i]).length := by rw [hL _ (List.getElem_mem hi)]; exact hj
    exact ⟨(L[i])[j], by simp [this]⟩
  have hpos : ∀ k < L.length * n, k % L.length < L.length ∧ k / L.length < n := by
    intro k hk
    have h0 : 0 < L.length := Nat.pos_of_ne_zero fun h => by rw [h, Nat.zero_mul] at hk; omega
    exact ⟨Nat.mod_lt _ h0, (Nat.div_lt_iff_lt_mul h0).2 (by rw [Nat.mul_comm n]; exact hk)⟩
  have hmap : ((Sparsity.positions L.length n).filterMap fun p => (L[p.1]?).bind (·[p.2]?)).map some =
      (List.range (L.length * n)).map fun k => (L[k % L.length]?).bind (·[k / L.length]?) := by
    rw [Sparsity.positions_eq, List.filterMap_map]
    have : ∀ l : List ℕ, (∀ k ∈ l, k < L.length * n) →
        (l.filterMap ((fun p : ℕ × ℕ => (L[p.1]?).bind (·[p.2]?)) ∘ fun k => (k % L.length, k / L.length))).map some =
          l.map fun k => (L[k % L.length]?).bind (·[k / L.length]?) := by
      intro l
      induction l with
      | nil => intro _; rfl
      | cons k l ih =>
        intro h
        obtain ⟨h1, h2⟩ := hpos k (h k List.mem_cons_self)
        obtain ⟨v, hv⟩ := hsome _ h1 _ h2
        rw [List.filterMap_cons, List.map_cons, ← ih fun x hx => h x (List.mem_cons_of_mem _ hx)]
        simp only [Function.comp, hv, List.map_cons]
    exact this _ fun k hk => List.mem_range.1 hk
  have hidx : ∀ i < L.length, ∀ j < n, j * L.length + i < L.length * n := by
    intro i hi j hj
    calc j * L.length + i < j * L.length + L.length := by omega
      _ = L.length * (j + 1) := by rw [Nat.mul_succ, Nat.mul_comm]
      _ ≤ L.length * n := Nat.mul_le_mul_left _ hj
  have key : d = ((Sparsity.positions L.length n).filterMap fun p => (L[p.1]?).bind (·[p.2]?)) ↔
      d.map some = (List.range (L.length * n)).map fun k => (L[k % L.length]?).bind (·[k / L.length]?) := by
    rw [← hmap]
    exact ⟨fun h => by rw [← h], fun h => List.map_injective_iff.2 (Option.some_injective V) h⟩
  rw [key]
  constructor
  · intro h
    have hlen : d.length = L.length * n := by simpa using congrArg List.length h
    refine ⟨hlen, fun i hi j hj => ?_⟩
    have hk := hidx i hi j hj
    have h1 := congrArg (fun l : List (Option V) => l[j * L.length + i]?) h
    simp only [List.getElem?_map, List.getElem?_range hk, Option.map_some] at h1
    rw [show (j * L.length + i) % L.length = i by rw [Nat.add_comm, Nat.add_mul_mod_self_right, Nat.mod_eq_of_lt hi],
      show (j * L.length + i) / L.length = j by
        rw [Nat.add_comm, Nat.add_mul_div_right _ _ (by omega), Nat.div_eq_of_lt hi, Nat.zero_add]] at h1
    rw [List.getElem?_eq_getElem (by omega)] at h1 ⊢
    simpa using h1
  · rintro ⟨hlen, h⟩
    apply List.ext_getElem?
    intro k
    by_cases hk : k < L.length * n
    · obtain ⟨h1, h2⟩ := hpos k hk
      have := h _ h1 _ h2
      rw [Nat.mul_comm, Nat.div_add_mod] at this
      rw [List.getElem?_map, List.getElem?_map, List.getElem?_range hk, Option.map_some, ← this,
        List.getElem?_eq_getElem (by omega)]
      rfl
    · rw [List.getElem?_eq_none (by simpa [hlen] using hk), List.getElem?_eq_none (by simpa using hk)]

theorem toMat_iff {p : Pay V} {m : SMat V} : p.toMat = .ok m ↔ IsValue p m := by
  constructor
  · intro h
    cases p with
    | mat m' => cases h; exact .mat _
    | num v => cases h; exact .num v
    | list l =>
      rw [Pay.toMat] at h
      cases hl : l.mapM Pay.toNum with
      | error e =>
        rw [hl] at h
        replace h : Except.bind (l.mapM Pay.toRow) ofRows = .ok m := h
        cases hr : l.mapM Pay.toRow with
        | error e => rw [hr] at h; cases h
        | ok L =>
          rw [hr] at h
          replace h : ofRows L = .ok m := h
          rw [mapM_toRow.1 hr]
          have hne : L ≠ [] := by
            rintro rfl
            rw [mapM_toRow.1 hr] at hl
            cases hl
          rw [ofRows] at h
          split at h
          · rename_i ha
            cases h
            rw [List.all_eq_true] at ha
            have ha' : ∀ r ∈ L, r.length = (L.headD []).length := fun r hr => by simpa using ha r hr
            obtain ⟨h1, h2⟩ := (rows_data L _ ha' _).1 rfl
            exact .rows L _ _ hne ha' h1 h2
          · cases h
      | ok vs =>
        rw [hl] at h
        cases h
        rw [mapM_toNum.1 hl]
        exact .list vs
    | none => cases h
    | dict => cases h
    | rep => cases h
  · intro h
    cases h with
    | mat => rfl
    | num => rfl
    | list l =>
      rw [Pay.toMat, mapM_toNum.2 rfl]
      rfl
    | rows L n d hne hL hd1 hd2 =>
      rw [Pay.toMat]
      have h1 : ∃ e, (L.map fun r => Pay.list (r.map .num)).mapM Pay.toNum = .error e := by
        cases L with
        | nil => exact absurd rfl hne
        | cons r L => rw [List.map_cons, List.mapM_cons]; exact ⟨_, rfl⟩
      obtain ⟨e, he⟩ := h1
      rw [he]
      show Except.bind _ ofRows = _
      rw [mapM_toRow.2 rfl]
      show ofRows L = _
      have hn : (L.headD []).length = n := by
        cases L with
        | nil => exact absurd rfl hne
        | cons r L => exact hL r List.mem_cons_self
      rw [ofRows]
      simp only [hn]
      rw [if_pos (by rw [List.all_eq_true]; intro r hr; simpa using hL r hr), ← (rows_data L n hL d).2 ⟨hd1, hd2⟩]

theorem IsValue.toMat {pay : Pay V} {m : SMat V} (h : IsValue pay m) : pay.toMat = .ok m := toMat_iff.2 h

theorem SMat.T_at' [Zero V] {m : SMat V} (h : m.WF) (p : ℕ × ℕ) : m.T.at' p = m.at' (p.2, p.1) := by
  have hT : m.T = fill m.sp.T fun p => m.at' (p.2, p.1) := by
    rw [T, fill]
    congr 1
    have : ∀ l : List (ℕ × ℕ), (∀ q ∈ l, (q.2, q.1) ∈ m.sp.nz) →
        l.filterMap (fun p => m.nzAt (p.2, p.1)) = l.map fun p => m.at' (p.2, p.1) := by
      intro l
      induction l with
      | nil => intro _; rfl
      | cons q l ih =>
        intro hq
        have h1 := hq q List.mem_cons_self
        obtain ⟨v, hv⟩ : ∃ v, m.nzAt (q.2, q.1) = some v := by
          cases hv : m.nzAt (q.2, q.1) with
          | none => exact absurd h1 ((nzAt_eq_none h).1 hv)
          | some v => exact ⟨v, rfl⟩
        rw [List.filterMap_cons, hv, List.map_cons, ih fun b hb => hq b (List.mem_cons_of_mem _ hb), at', hv]
        rfl
    exact this _ fun q hq => (Sparsity.mem_T h.1).1 hq
  rw [hT, fill_at' (Sparsity.T_canon _)]
  split
  · rfl
  · rename_i hp
    rw [Sparsity.mem_T h.1] at hp
    rw [at', (nzAt_eq_none h).2 hp]
    rfl

section
variable [Zero V]

theorem written_of_fits {i : IMat} {m : SMat V} {f : ℕ × ℕ → V} (hi : i.WF) (hm : m.WF) (h : Fits i.sp m f) :
    written i m = some (i.sp.nz.map f) := by
  cases h with
  | same h1 h2 => rw [written, if_pos ⟨h1.symm, h2.symm⟩]
  | scalar h1 h2 =>
    rw [written]
    split
    · rename_i h3
      congr 1
      apply List.map_congr_left
      intro p hp
      have := hi.1.mem hp
      have : p = (0, 0) := Prod.ext (by simp only; omega) (by simp only; omega)
      rw [this]
    · rw [if_pos (by simp [SMat.isScalar, h1, h2])]
  | trans h1 h2 h3 =>
    rw [written]
    split
    · rename_i h4
      congr 1
      apply List.map_congr_left
      intro p hp
      have := hi.1.mem hp
      have : p = (0, 0) := Prod.ext (by simp only; omega) (by simp only; omega)
      rw [this]
    · split
      · rename_i h4 h5
        have h5 : m.sp.rows = 1 ∧ m.sp.cols = 1 := by simpa [SMat.isScalar] using h5
        omega
      · rw [if_pos ⟨h2.symm, h1.symm, h3⟩]
        congr 1
        apply List.map_congr_left
        intro p _
        exact SMat.T_at' hm p

theorem written_none {i : IMat} {m : SMat V} (h : ∀ f, ¬ Fits i.sp m f) : written i m = none := by
  unfold written
  split
  · rename_i h1; exact absurd (Fits.same h1.1.symm h1.2.symm) (h _)
  · split
    · rename_i h1
      have h1 : m.sp.rows = 1 ∧ m.sp.cols = 1 := by simpa [SMat.isScalar] using h1
      exact absurd (Fits.scalar h1.1 h1.2) (h _)
    · split
      · rename_i h1; exact absurd (Fits.trans h1.2.1.symm h1.1.symm h1.2.2) (h _)
      · rfl

theorem setCall_plain (map : List (CIdx × IMat)) (pay : Pay V) (c : CIdx) (x : List (PIdx (PyFn V))) (e : Option Prim)
    (he : ∀ p, e = some p → p.symm = false) {m : SMat V} (hm : pay.toMat = .ok m) {i : IMat}
    (hi : imCall applyIdx map c (some x) e = .ok i) (master : List V) :
    setCall map pay c (some x) e master = match assign master i m with
      | .error e => (.error e, master)
      | .ok master => (.ok (), master) := by
  rw [imCall] at hi
  unfold setCall
  rw [hm]
  simp only
  cases hg : dictGet map c with
  | none => rw [hg] at hi; cases hi
  | some idx =>
    rw [hg] at hi
    simp only at hi ⊢
    rw [hi]
    simp only
    split
    · rename_i o ss _ _
      cases he _ rfl
    · rfl

theorem getCall_plain [Add V] [Sub V] (map : List (CIdx × IMat)) (master : List V) (c : CIdx) (x : List (PIdx (PyFn V)))
    (e : Option Prim) (he : ∀ p, e = some p → p.symm = false) {i : IMat} (hi : imCall applyIdx map c (some x) e = .ok i) :
    getCall map [] master c (some x) e = gather master i := by
  rw [imCall] at hi
  unfold getCall
  cases hg : dictGet map c with
  | none => rw [hg] at hi; cases hi
  | some idx =>
    rw [hg] at hi
    simp only at hi ⊢
    simp only [dictGet, List.lookup_nil, hi]
    show (gather master i).bind _ = _
    cases e with
    | none => cases gather master i <;> rfl
    | some p =>
      have hs := he p rfl
      simp only [hs]
      cases gather master i <;> rfl

end

/-- The index matrix read by `s.i`, as used by getter and setter. -/
theorem imCall_of_i {c : CS} (hwf : WFs c.struct.entries c.struct.order) {a e sp} (h : IsPart c.struct.entries a e sp)
    {x : List (PIdx (PyFn V))} (hx : e = none → x = []) {i : IMat} (hi : c.i (a.map .ofKey ++ x) = .ok (.leaf i)) :
    imCall applyIdx c.map a (some x) e = .ok i := by
  rw [c.i_part hwf h x hx] at hi
  cases hc : imCall applyIdx c.map a (some x) e with
  | error e => rw [hc] at hi; cases hi
  | ok j =>
    rw [hc] at hi
    have : Tree.leaf j = Tree.leaf i := Except.ok.inj hi
    cases this
    rfl

theorem imCall_part {c : CS} {a : CIdx} {m : IMat} (e : Option Prim) (hm : dictGet c.map a = some m) :
    imCall (F := PyFn V) applyIdx c.map a (some []) e = .ok m := by
  rw [imCall, hm]
  rfl

variable [Zero V] [Add V] [Sub V]

/-- Reading a part of a struct without priority map. -/
theorem getitem_plain {c : CS} {ls} (hb : Built c ls) (hwf : WFs c.struct.entries c.struct.order) {master : List V}
    (hlen : master.length = c.size) {a e sp} (ha : IsPart c.struct.entries a e sp) (hs : ∀ p, e = some p → p.symm = false) :
    ∃ i : IMat, dictGet c.map a = some i ∧ i.sp = sp ∧ i.data.length = sp.nz.length ∧ i.data.Nodup ∧ (∀ k ∈ i.data, k < c.size) ∧
      (⟨c, master, []⟩ : Obj V).getitem (a.map .ofKey) = .ok (.leaf ⟨sp, i.data.map fun k => master.getD k 0⟩) := by
  obtain ⟨i, hg, hw, hnd, hin, rfl⟩ := hb.part hwf ha
  refine ⟨i, hg, rfl, hw.2, hnd, hin, ?_⟩
  have h := Obj.getitem_part (⟨c, master, []⟩ : Obj V) hwf ha [] (fun _ => rfl)
  rw [List.append_nil] at h
  rw [h]
  simp only
  rw [getCall_plain _ _ _ _ _ hs (imCall_part e hg), gather_ok (by rw [hlen]; exact hin)]
  rfl

/-- **C43**, with an additional index on the element (`s['x', 0, :2]`): if `s.i[idx]` is the index matrix `i` (distinct
positions), then after `s[idx] = v` for a value `v` that fits, `s[idx]` reads `v` at the positions of the pattern of `i`,
and `.cat` is unchanged outside `s.i[idx]`, whatever the contents were before. -/
theorem C43_extra (s : Struct) (hwf : WFs s.entries s.order) (c : CS) (hc : CS.ofStruct s = .ok c) (master : List V)
    (hlen : master.length = c.size) (a : CIdx) (e : Option Prim) (sp : Sparsity) (ha : IsPart s.entries a e sp)
    (hs : ∀ p, e = some p → p.symm = false) (x : List (PIdx (PyFn V))) (hx : e = none → x = [])
    (i : IMat) (hi : c.i (a.map .ofKey ++ x) = .ok (.leaf i)) (hw : i.WF) (hnd : i.data.Nodup)
    (hin : ∀ k ∈ i.data, k < c.size) (pay : Pay V) (m : SMat V) (hp : IsValue pay m) (hm : m.WF) (f : ℕ × ℕ → V)
    (hf : Fits i.sp m f) :
    ∃ master', (⟨c, master, []⟩ : Obj V).setitem (a.map .ofKey ++ x) pay = (.ok (), ⟨c, master', []⟩) ∧
      master'.length = master.length ∧
      (⟨c, master', []⟩ : Obj V).getitem (a.map .ofKey ++ x) = .ok (.leaf ⟨i.sp, i.sp.nz.map f⟩) ∧
      ∀ k ∉ i.data, master'[k]? = master[k]? := by
  obtain ⟨c', ls, hc', rfl, hb⟩ := ofStruct_built hwf
  rw [hc] at hc'
  cases hc'
  have hcall := imCall_of_i hwf ha hx hi
  obtain ⟨master', h1, h2, h3, h4⟩ := assign_spec (master := master) hw.2 hnd (by rw [hlen]; exact hin)
    (written_of_fits hw hm hf)
  refine ⟨master', ?_, h2, ?_, h4⟩
  · rw [Obj.setitem_part _ hwf ha x hx]
    simp only
    rw [setCall_plain _ _ _ _ _ hs hp.toMat hcall, h1]
    rfl
  · rw [Obj.getitem_part _ hwf ha x hx]
    simp only
    rw [getCall_plain _ _ _ _ _ hs hcall, h3]
    rfl

/-- **C43**: for every element or nested struct `a` (not of type 'symm'), every contents of the struct and every value that
fits, after `s[a] = v`, `s[a]` reads `v` (at the positions of the pattern of the element), `.cat` is unchanged outside the
positions `s.i[a]`, and every part of the struct that does not overlap `a` reads as before. -/
theorem C43_write_read (s : Struct) (hwf : WFs s.entries s.order) (c : CS) (hc : CS.ofStruct s = .ok c) (master : List V)
    (hlen : master.length = c.size) (a : CIdx) (e : Option Prim) (sp : Sparsity) (ha : IsPart s.entries a e sp)
    (hs : ∀ p, e = some p → p.symm = false) :
    ∃ i : IMat, c.i (V := V) (a.map .ofKey) = .ok (.leaf i) ∧ i.sp = sp ∧
      ∀ (pay : Pay V) (m : SMat V), IsValue pay m → m.WF → ∀ f, Fits sp m f →
        ∃ master', (⟨c, master, []⟩ : Obj V).setitem (a.map .ofKey) pay = (.ok (), ⟨c, master', []⟩) ∧
          master'.length = master.length ∧
          (⟨c, master', []⟩ : Obj V).getitem (a.map .ofKey) = .ok (.leaf ⟨sp, sp.nz.map f⟩) ∧
          (∀ k ∉ i.data, master'[k]? = master[k]?) ∧
          ∀ b e' sp', IsPart s.entries b e' sp' → ¬ a <+: b → ¬ b <+: a →
            (⟨c, master', []⟩ : Obj V).getitem (b.map .ofKey) = (⟨c, master, []⟩ : Obj V).getitem (b.map .ofKey) := by
  obtain ⟨c', ls, hc', rfl, hb⟩ := ofStruct_built hwf
  rw [hc] at hc'
  cases hc'
  obtain ⟨i, hg, hw, hnd, hin, rfl⟩ := hb.part hwf ha
  have hi : c.i (V := V) (a.map .ofKey ++ []) = .ok (.leaf i) := by
    rw [c.i_part hwf ha [] (fun _ => rfl), imCall_part e hg]
    rfl
  refine ⟨i, by rw [List.append_nil] at hi; exact hi, rfl, ?_⟩
  intro pay m hp hm f hf
  obtain ⟨master', h3, h4, h5, h6⟩ := C43_extra _ hwf c hc master hlen a e _ ha hs [] (fun _ => rfl) i hi hw hnd hin pay m hp hm
    f hf
  rw [List.append_nil] at h3 h5
  refine ⟨master', h3, h4, h5, h6, ?_⟩
  intro b e' sp' hbp hab hba
  obtain ⟨j, hg', _⟩ := hb.part hwf hbp
  have hg1 := Obj.getitem_part (⟨c, master', []⟩ : Obj V) hwf hbp [] (fun _ => rfl)
  have hg2 := Obj.getitem_part (⟨c, master, []⟩ : Obj V) hwf hbp [] (fun _ => rfl)
  rw [List.append_nil] at hg1 hg2
  rw [hg1, hg2]
  have : gather master' j = gather master j := gather_congr fun k hk =>
    h6 k (hb.part_disjoint hwf hbp ha hba hab hg' hg hk)
  have hc2 : ∀ m : List V, getCall c.map [] m b (some []) e' =
      (gather m j).bind fun r => if (match e' with
      | none => false
      | some p => p.symm) then triu2symm r else .ok r := by
    intro m
    unfold getCall
    rw [hg']
    rfl
  simp only [hc2, this]

/-- **C44**: writing a matrix whose shape is neither that of the element, nor scalar, nor (for vectors) its transpose raises
and leaves the struct unchanged.  (For entries of type 'symm' see `C44_symm`.) -/
theorem C44_shape (s : Struct) (hwf : WFs s.entries s.order) (c : CS) (hc : CS.ofStruct s = .ok c) (master : List V)
    (a : CIdx) (e : Option Prim) (sp : Sparsity) (ha : IsPart s.entries a e sp)
    (hs : ∀ p, e = some p → p.symm = false) :
    ∀ (pay : Pay V) (m : SMat V), IsValue pay m → (∀ f, ¬ Fits sp m f) →
      (⟨c, master, []⟩ : Obj V).setitem (a.map .ofKey) pay = (.error .generic, ⟨c, master, []⟩) := by
  obtain ⟨c', ls, hc', rfl, hb⟩ := ofStruct_built hwf
  rw [hc] at hc'
  cases hc'
  obtain ⟨i, hg, hw, hnd, hin, rfl⟩ := hb.part hwf ha
  have hcall := imCall_part (V := V) e hg
  intro pay m hp hf
  have h3 := Obj.setitem_part (⟨c, master, []⟩ : Obj V) hwf ha [] (fun _ => rfl) pay
  rw [List.append_nil] at h3
  rw [h3]
  simp only
  rw [setCall_plain _ _ _ _ _ hs hp.toMat hcall, assign_out (written_none hf)]
  rfl

/-- **C44** for an entry of type 'symm': the value must be a scalar or have exactly the original pattern. -/
theorem C44_symm (s : Struct) (hwf : WFs s.entries s.order) (c : CS) (hc : CS.ofStruct s = .ok c) (master : List V)
    (a : CIdx) (p : Prim) (osp : Sparsity) (ha : IsLeaf s.entries a p) (hs : p.symm = true) (ho : p.orig = some osp)
    (pay : Pay V) (m : SMat V) (hp : IsValue pay m) (h1 : ¬ (m.sp.rows = 1 ∧ m.sp.cols = 1)) (h2 : m.sp ≠ osp) :
    (⟨c, master, []⟩ : Obj V).setitem (a.map .ofKey) pay = (.error .generic, ⟨c, master, []⟩) := by
  obtain ⟨c', ls, hc', rfl, hb⟩ := ofStruct_built hwf
  rw [hc] at hc'
  cases hc'
  obtain ⟨i, hg, _⟩ := hb.part hwf (.leaf ha)
  have h3 := Obj.setitem_part (⟨c, master, []⟩ : Obj V) hwf (.leaf ha) [] (fun _ => rfl) pay
  rw [List.append_nil] at h3
  rw [h3]
  simp only
  have h4 : m.isScalar = false := by
    rw [SMat.isScalar, decide_eq_false_iff_not]; exact h1
  obtain ⟨sp, sy, og, ss⟩ := p
  simp only at hs ho
  subst hs ho
  have : setCall c.map pay a (some []) (some ⟨sp, true, some osp, ss⟩) master = (.error .generic, master) := by
    unfold setCall
    rw [hp.toMat]
    simp only [hg, Option.getD_some, performExtraIndex, h4, Bool.false_eq_true, if_false]
    rw [if_pos (Ne.symm h2)]
  rw [this]
  rfl

/-- A write to a whole part: the part, its pattern, and the values it has afterwards. -/
inductive WritesTo (es : List Entry) : CIdx → Pay V → Sparsity → (ℕ × ℕ → V) → Prop
  | mk {a e sp pay m f} : IsPart es a e sp → (∀ p, e = some p → p.symm = false) → IsValue pay m → m.WF → Fits sp m f →
      WritesTo es a pay sp f

theorem WritesTo.inv {es : List Entry} {a : CIdx} {pay : Pay V} {sp : Sparsity} {f : ℕ × ℕ → V} (h : WritesTo es a pay sp f) :
    ∃ e m, IsPart es a e sp ∧ (∀ p, e = some p → p.symm = false) ∧ IsValue pay m ∧ m.WF ∧ Fits sp m f := by
  cases h with
  | mk h1 h2 h3 h4 h5 => exact ⟨_, _, h1, h2, h3, h4, h5⟩

/-- Writes to parts that do not overlap all succeed; afterwards each part has its value and everything else is unchanged. -/
theorem setAll_parts {s : Struct} (hwf : WFs s.entries s.order) {c : CS} (hc : CS.ofStruct s = .ok c)
    (ws : List (CIdx × Pay V × Sparsity × (ℕ × ℕ → V))) (hw : ∀ w ∈ ws, WritesTo s.entries w.1 w.2.1 w.2.2.1 w.2.2.2)
    (hd : ws.Pairwise fun v w => ¬ v.1 <+: w.1 ∧ ¬ w.1 <+: v.1) (master : List V) (hlen : master.length = c.size) :
    ∃ master', (⟨c, master, []⟩ : Obj V).setAll (ws.map fun w => (w.1.map .ofKey, w.2.1)) = (.ok (), ⟨c, master', []⟩) ∧
      master'.length = c.size ∧
      (∀ w ∈ ws, (⟨c, master', []⟩ : Obj V).getitem (w.1.map .ofKey) = .ok (.leaf ⟨w.2.2.1, w.2.2.1.nz.map w.2.2.2⟩)) ∧
      ∀ b e sp, IsPart s.entries b e sp → (∀ w ∈ ws, ¬ w.1 <+: b ∧ ¬ b <+: w.1) →
        (⟨c, master', []⟩ : Obj V).getitem (b.map .ofKey) = (⟨c, master, []⟩ : Obj V).getitem (b.map .ofKey) := by
  induction ws generalizing master with
  | nil => exact ⟨master, rfl, hlen, by simp, by simp⟩
  | cons w ws ih =>
    rw [List.pairwise_cons] at hd
    obtain ⟨a, pay, sp, f⟩ := w
    have h0 := hw _ List.mem_cons_self
    simp only at h0
    obtain ⟨e, m, hp, hs, hv, hm, hf⟩ := h0.inv
    obtain ⟨i, _, _, h1⟩ := C43_write_read s hwf c hc master hlen a e sp hp hs
    obtain ⟨m1, h2, h3, h4, h5, h6⟩ := h1 pay m hv hm f hf
    obtain ⟨m2, g1, g2, g3, g4⟩ := ih (fun w hw' => hw w (List.mem_cons_of_mem _ hw')) hd.2 m1 (h3.trans hlen)
    refine ⟨m2, ?_, g2, ?_, ?_⟩
    · rw [List.map_cons, Obj.setAll]
      simp only
      rw [h2]
      exact g1
    · intro w hw'
      rcases List.mem_cons.1 hw' with rfl | hw'
      · rw [g4 a e sp hp fun w hw' => ⟨(hd.1 w hw').2, (hd.1 w hw').1⟩, h4]
      · exact g3 w hw'
    · intro b e' sp' hb hb'
      rw [g4 b e' sp' hb fun w hw' => hb' w (List.mem_cons_of_mem _ hw')]
      have := hb' _ List.mem_cons_self
      exact h6 b e' sp' hb this.1 this.2

/-! ## Instances -/

/-- A list of rows denotes the matrix with these rows (its elements are stored column by column). -/
example : IsValue (.list [.list [.num 1, .num 2, .num 3], .list [.num 4, .num 5, .num 6]]) (⟨.dense 2 3, [1, 4, 2, 5, 3, 6]⟩ : SMat ℚ) :=
  toMat_iff.1 rfl

/-- Rows of different lengths denote nothing. -/
example (m : SMat ℚ) : ¬ IsValue (.list [.list [.num 1, .num 2], .list [.num 4]]) m := by
  intro h
  have := toMat_iff.2 h
  cases this

/-- Writing a row to a column element of `exStruct` and reading it back; `n[1]` is not affected. -/
example : ∃ c i, CS.ofStruct exStruct = .ok c ∧ c.i (V := ℚ) [.str "b", .int 1] = .ok (.leaf i) ∧
    ∃ m', (⟨c, (List.range c.size).map fun k : ℕ => (k : ℚ), []⟩ : Obj ℚ).setitem [.str "b", .int 1]
        (.mat ⟨.dense 1 2, [7, 8]⟩) = (.ok (), ⟨c, m', []⟩) ∧
      (⟨c, m', []⟩ : Obj ℚ).getitem [.str "b", .int 1] = .ok (.leaf ⟨.dense 2 1, [7, 8]⟩) := by
  obtain ⟨c, h, _⟩ := C39_size exStruct exStruct_wf
  have hl : IsPart exStruct.entries [.str "b", .int 1] _ _ := .leaf (.prim (dims := [2])
    (p := ⟨.dense 2 1, false, none, none⟩) (by simp [exStruct]) (.cons ⟨1, by decide, rfl⟩ .nil))
  obtain ⟨i, hi, _, h1⟩ := C43_write_read exStruct exStruct_wf c h ((List.range c.size).map fun k : ℕ => (k : ℚ)) (by simp) _ _ _
    hl (by simp)
  obtain ⟨m', h2, _, h3, _⟩ := h1 _ _ (.mat ⟨.dense 1 2, [7, 8]⟩) ⟨Sparsity.dense_canon _ _, rfl⟩ _ (.trans rfl rfl rfl)
  exact ⟨c, i, h, hi, m', h2, h3⟩

/-- A 3x1 value does not fit a 2x1 element. -/
example : ∃ c, CS.ofStruct exStruct = .ok c ∧ ∀ m : List ℚ, (⟨c, m, []⟩ : Obj ℚ).setitem [.str "b", .int 1]
        (.list [.num 7, .num 8, .num 9]) = (.error .generic, ⟨c, m, []⟩) := by
  obtain ⟨c, h, _⟩ := C39_size exStruct exStruct_wf
  have hl : IsPart exStruct.entries [.str "b", .int 1] _ _ := .leaf (.prim (dims := [2])
    (p := ⟨.dense 2 1, false, none, none⟩) (by simp [exStruct]) (.cons ⟨1, by decide, rfl⟩ .nil))
  refine ⟨c, h, fun m => C44_shape exStruct exStruct_wf c h m _ _ _ hl (by simp) _ _ (.list [7, 8, 9]) ?_⟩
  intro f hf
  cases hf with
  | same h1 h2 => cases h1
  | scalar h1 h2 => cases h1
  | trans h1 h2 h3 => cases h1

/-- A 2x2 matrix with another pattern does not fit a symmetric entry. -/
example : ∃ c, CS.ofStruct (oneStruct ⟨.upper 2, true, some (.dense 2 2), none⟩) = .ok c ∧ ∀ m : List ℚ,
    (⟨c, m, []⟩ : Obj ℚ).setitem [.str "P"] (.mat ⟨.upper 2, [1, 2, 3]⟩) = (.error .generic, ⟨c, m, []⟩) := by
  have hc : (Sparsity.upper 2).Canon := Sparsity.ofPred_canon _ _ _
  obtain ⟨c, h1, h2, hb⟩ := oneStruct_built (p := ⟨.upper 2, true, some (.dense 2 2), none⟩) hc
  exact ⟨c, h1, fun m => C44_symm _ (oneStruct_wf hc) c h1 m _ _ _ (oneStruct_leaf _) rfl rfl _ _ (.mat _) (by decide)
    (by decide)⟩

end CE.St
