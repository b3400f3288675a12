import Verif.Struct.PropsRepeat
import Mathlib.Tactic.Ring

/-! # Entries of type 'symm': C55 -/

namespace CE.St

variable {V : Type}

/-- What `CasadiStructEntry(..., type='symm')` makes of a square pattern `osp` (structure3.py:1303-1314): the original pattern
is kept, the entry holds its upper triangle. -/
structure IsSymm (p : Prim) (osp : Sparsity) : Prop where
  symm : p.symm = true
  orig : p.orig = some osp
  canon : osp.Canon
  square : osp.rows = osp.cols
  sp : p.sp = osp.inter (.upper osp.rows)

theorem Sparsity.mem_inter {a b : Sparsity} {p : ℕ × ℕ} : p ∈ (a.inter b).nz ↔ p ∈ a.nz ∧ p ∈ b.nz := by
  simp [Sparsity.inter]

theorem Sparsity.mem_upper {n : ℕ} {p : ℕ × ℕ} : p ∈ (Sparsity.upper n).nz ↔ p.1 ≤ p.2 ∧ p.2 < n := by
  rw [Sparsity.upper, Sparsity.mem_ofPred]
  simp only [decide_eq_true_eq]
  omega

namespace IsSymm
variable {p : Prim} {osp : Sparsity}

theorem mem_sp (h : IsSymm p osp) {q : ℕ × ℕ} : q ∈ p.sp.nz ↔ q ∈ osp.nz ∧ q.1 ≤ q.2 := by
  rw [h.sp, Sparsity.mem_inter, Sparsity.mem_upper]
  constructor
  · rintro ⟨h1, h2, _⟩; exact ⟨h1, h2⟩
  · rintro ⟨h1, h2⟩
    have := h.canon.mem h1
    have := h.square
    exact ⟨h1, h2, by omega⟩

theorem rows (h : IsSymm p osp) : p.sp.rows = osp.rows := by rw [h.sp]; rfl

theorem cols (h : IsSymm p osp) : p.sp.cols = osp.rows := by rw [h.sp, h.square]; rfl

/-- The pattern that is read: the upper triangle and its mirror image. -/
def pattern (osp : Sparsity) : Sparsity :=
  .ofPred osp.rows osp.rows fun q => (q ∈ osp.nz ∧ q.1 ≤ q.2) ∨ ((q.2, q.1) ∈ osp.nz ∧ q.2 ≤ q.1)

end IsSymm

theorem ofPred_congr {r c : ℕ} {f g : ℕ × ℕ → Bool} (h : ∀ q, f q = g q) : Sparsity.ofPred r c f = Sparsity.ofPred r c g := by
  rw [show f = g from funext h]

section
variable [Zero V] [Add V] [Sub V]

theorem triu2symm_eq {p : Prim} {osp : Sparsity} (h : IsSymm p osp) {r : SMat V} (hr : r.sp = p.sp) :
    triu2symm r = .ok (SMat.fill (IsSymm.pattern osp) fun q =>
      if q.1 = q.2 then r.at' q + r.at' q - r.at' q else if q.1 < q.2 then r.at' q else r.at' (q.2, q.1)) := by
  rw [triu2symm, if_neg, hr, h.rows, h.cols, IsSymm.pattern]
  · congr 2
    apply ofPred_congr
    intro q
    simp only [h.mem_sp]
  · rw [hr, h.rows, h.cols]
    simp only [ne_eq, not_true_eq_false, List.any_eq_true, decide_eq_true_eq, Prod.exists, false_or, not_exists, not_and,
      not_lt]
    intro a b hab
    exact (h.mem_sp.1 hab).2

/-- What is read from a symmetric entry. -/
theorem getitem_symm {c : CS} {ls} (hb : Built c ls) (hwf : WFs c.struct.entries c.struct.order) {master : List V}
    (hlen : master.length = c.size) {a : CIdx} {p : Prim} {osp : Sparsity} (ha : IsLeaf c.struct.entries a p)
    (hs : IsSymm p osp) :
    ∃ i : IMat, dictGet c.map a = some i ∧ i.WF ∧ i.data.Nodup ∧ (∀ k ∈ i.data, k < c.size) ∧ i.sp = p.sp ∧
      (⟨c, master, []⟩ : Obj V).getitem (a.map .ofKey) = .ok (.leaf (SMat.fill (IsSymm.pattern osp) fun q =>
        let r : SMat V := ⟨p.sp, i.data.map fun k => master.getD k 0⟩
        if q.1 = q.2 then r.at' q + r.at' q - r.at' q else if q.1 < q.2 then r.at' q else r.at' (q.2, q.1))) := by
  obtain ⟨i, hg, hw, hnd, hin, hsp⟩ := hb.part hwf (.leaf ha)
  refine ⟨i, hg, hw, hnd, hin, hsp, ?_⟩
  have h := Obj.getitem_part (⟨c, master, []⟩ : Obj V) hwf (.leaf ha) [] (fun _ => rfl)
  rw [List.append_nil] at h
  rw [h]
  simp only
  have : getCall c.map [] master a (some []) (some p) = (gather master i).bind fun r => triu2symm r := by
    unfold getCall
    rw [hg]
    simp only [hs.symm]
    rfl
  rw [this, gather_ok (by rw [hlen]; exact hin), hsp]
  show (gen (triu2symm _)).map _ = _
  rw [triu2symm_eq hs rfl]
  rfl

/-- **C55** (reading): whatever the contents, reading an entry of type 'symm' yields a symmetric matrix (values and
pattern). -/
theorem C55_read_symmetric (s : Struct) (hwf : WFs s.entries s.order) (c : CS) (hc : CS.ofStruct s = .ok c) (master : List V)
    (hlen : master.length = c.size) (a : CIdx) (p : Prim) (osp : Sparsity) (ha : IsLeaf s.entries a p) (hs : IsSymm p osp) :
    ∃ r : SMat V, (⟨c, master, []⟩ : Obj V).getitem (a.map .ofKey) = .ok (.leaf r) ∧ r.WF ∧ r.sp.rows = osp.rows ∧
      r.sp.cols = osp.rows ∧ (∀ i j, r.at' (i, j) = r.at' (j, i)) ∧ ∀ i j, (i, j) ∈ r.sp.nz ↔ (j, i) ∈ r.sp.nz := by
  obtain ⟨c', ls, hc', rfl, hb⟩ := ofStruct_built hwf
  rw [hc] at hc'
  cases hc'
  obtain ⟨i, _, _, _, _, _, h⟩ := getitem_symm hb hwf hlen ha hs
  have hcan : (IsSymm.pattern osp).Canon := Sparsity.ofPred_canon _ _ _
  have hsymm : ∀ i j, (i, j) ∈ (IsSymm.pattern osp).nz ↔ (j, i) ∈ (IsSymm.pattern osp).nz := by
    intro i j
    simp only [IsSymm.pattern, Sparsity.mem_ofPred, decide_eq_true_eq]
    constructor <;> rintro ⟨⟨h1, h2⟩, h3 | h3⟩ <;> first
      | exact ⟨⟨h2, h1⟩, .inr h3⟩
      | exact ⟨⟨h2, h1⟩, .inl h3⟩
  refine ⟨_, h, SMat.fill_WF hcan _, rfl, rfl, ?_, hsymm⟩
  intro i j
  rw [SMat.fill_at' hcan, SMat.fill_at' hcan]
  by_cases hm : (i, j) ∈ (IsSymm.pattern osp).nz
  · rw [if_pos hm, if_pos ((hsymm i j).1 hm)]
    rcases lt_trichotomy i j with h1 | h1 | h1
    · simp only [h1.ne, h1.ne', h1, if_false, if_true, not_lt.2 h1.le]
    · subst h1; rfl
    · simp only [h1.ne, h1.ne', h1, if_false, if_true, not_lt.2 h1.le]
  · rw [if_neg hm, if_neg fun h => hm ((hsymm i j).2 h)]

/-- **C55** (writing): after writing a matrix with the pattern the entry was declared with, the entry reads the symmetric
matrix with the upper triangle of the written one (the values below the diagonal are silently ignored); for a scalar, the
scalar everywhere in the pattern.  In particular a symmetric matrix is read back unchanged.  Everything else is unchanged.
`x + x - x = x` holds for all values (not for `inf`). -/
theorem C55_write_read_partial (hv : ∀ x : V, x + x - x = x) (s : Struct) (hwf : WFs s.entries s.order) (c : CS)
    (hc : CS.ofStruct s = .ok c) (master : List V) (hlen : master.length = c.size) (a : CIdx) (p : Prim) (osp : Sparsity)
    (ha : IsLeaf s.entries a p) (hs : IsSymm p osp) (pay : Pay V) (m : SMat V) (hp : IsValue pay m) (hm : m.WF)
    (f : ℕ × ℕ → V) (hf : (m.sp = osp ∧ f = m.at') ∨ (m.sp.rows = 1 ∧ m.sp.cols = 1 ∧ f = fun _ => m.at' (0, 0))) :
    ∃ master' r, (⟨c, master, []⟩ : Obj V).setitem (a.map .ofKey) pay = (.ok (), ⟨c, master', []⟩) ∧
      master'.length = master.length ∧
      (⟨c, master', []⟩ : Obj V).getitem (a.map .ofKey) = .ok (.leaf r) ∧ r.WF ∧ r.sp = IsSymm.pattern osp ∧
      (∀ i j, (i, j) ∈ r.sp.nz → i ≤ j → r.at' (i, j) = f (i, j) ∧ r.at' (j, i) = f (i, j)) ∧
      (m.sp = osp → (∀ i j, m.at' (i, j) = m.at' (j, i)) → ∀ q, r.at' q = m.at' q) ∧
      ∀ b e' sp', IsPart s.entries b e' sp' → ¬ a <+: b → ¬ b <+: a →
        (⟨c, master', []⟩ : Obj V).getitem (b.map .ofKey) = (⟨c, master, []⟩ : Obj V).getitem (b.map .ofKey) := by
  obtain ⟨c', ls, hc', rfl, hb⟩ := ofStruct_built hwf
  rw [hc] at hc'
  cases hc'
  obtain ⟨i, hg, hw, hnd, hin, hsp⟩ := hb.part hwf (.leaf ha)
  have hin' : ∀ k ∈ i.data, k < master.length := by rw [hlen]; exact hin
  have hcanp : p.sp.Canon := ha.canon hwf
  -- the effect of the write on `master`
  have key : ∃ master', setCall c.map pay a (some []) (some p) master = (.ok (), master') ∧ master'.length = master.length ∧
      gather master' i = .ok ⟨i.sp, i.sp.nz.map f⟩ ∧ ∀ k ∉ i.data, master'[k]? = master[k]? := by
    have hscalar : m.isScalar = true → (f = fun _ => m.at' (0, 0)) ∨ ∀ q ∈ i.sp.nz, f q = m.at' (0, 0) := by
      intro h1
      have h1 : m.sp.rows = 1 ∧ m.sp.cols = 1 := by simpa [SMat.isScalar] using h1
      rcases hf with ⟨h2, h3⟩ | ⟨_, _, h3⟩
      · right
        intro q hq
        rw [h3]
        have := hw.1.mem hq
        rw [hsp, hs.rows, hs.cols, ← h2] at this
        have : q = (0, 0) := Prod.ext (by simp only; omega) (by simp only; omega)
        rw [this]
      · exact .inl h3
    obtain ⟨sp, sy, og, ss⟩ := p
    obtain rfl : sy = true := hs.symm
    obtain rfl : og = some osp := hs.orig
    by_cases hsc : m.isScalar = true
    · have h1 : m.sp.rows = 1 ∧ m.sp.cols = 1 := by simpa [SMat.isScalar] using hsc
      have hfit : Fits i.sp m fun _ => m.at' (0, 0) := .scalar h1.1 h1.2
      obtain ⟨m1, g1, g2, g3, g4⟩ := assign_spec (master := master) hw.2 hnd hin' (written_of_fits hw hm hfit)
      obtain ⟨m2, k1, k2, k3, k4⟩ := assign_spec (master := m1) hw.2 hnd (by rw [g2]; exact hin') (written_of_fits hw hm hfit)
      refine ⟨m2, ?_, k2.trans g2, ?_, fun k hk => (k4 k hk).trans (g4 k hk)⟩
      · unfold setCall
        rw [hp.toMat]
        simp only [hg, Option.getD_some, performExtraIndex, hsc, if_true, g1, k1]
      · rw [k3]
        congr 2
        apply List.map_congr_left
        intro q hq
        rcases hscalar hsc with h | h
        · rw [h]
        · exact (h q hq).symm
    · have hmo : m.sp = osp ∧ f = m.at' := by
        rcases hf with h | ⟨h1, h2, _⟩
        · exact h
        · exact absurd (by simp [SMat.isScalar, h1, h2]) hsc
      have hisp : i.sp.Canon := hw.1
      have hr : i.sp.rows = m.sp.rows := by rw [hsp, hs.rows, hmo.1]
      have hcl : i.sp.cols = m.sp.cols := by rw [hsp, hs.cols, hmo.1, hs.square]
      have hsq : m.sp.rows = m.sp.cols := by rw [hmo.1]; exact hs.square
      obtain ⟨m1, g1, g2, g3, g4⟩ := assign_spec (master := master) hw.2 hnd hin'
        (written_of_fits hw (SMat.fill_WF hisp m.T.at') (.same rfl rfl))
      obtain ⟨m2, k1, k2, k3, k4⟩ := assign_spec (master := m1) hw.2 hnd (by rw [g2]; exact hin')
        (written_of_fits hw (SMat.fill_WF hisp m.at') (.same rfl rfl))
      refine ⟨m2, ?_, k2.trans g2, ?_, fun k hk => (k4 k hk).trans (g4 k hk)⟩
      · unfold setCall
        rw [hp.toMat]
        simp only [hg, Option.getD_some, performExtraIndex, hsc, Bool.false_eq_true, if_false]
        rw [if_neg (by rw [hmo.1]; simp), if_neg (by rw [hr, hcl, hsq]; simp), SMat.project, SMat.project, g1]
        simp only
        rw [if_neg (by rw [hr, hcl]; simp), k1]
      · rw [k3]
        congr 2
        apply List.map_congr_left
        intro q hq
        rw [SMat.fill_at' hisp, if_pos hq, hmo.2]
  obtain ⟨master', h1, h2, h3, h4⟩ := key
  have hlen' : master'.length = c.size := h2.trans hlen
  obtain ⟨i', hg', _, _, _, _, h5⟩ := getitem_symm hb hwf hlen' ha hs
  rw [hg] at hg'
  cases hg'
  have hdata : (i.data.map fun k => master'.getD k 0) = i.sp.nz.map f := by
    rw [gather_ok (by rw [h2]; exact hin')] at h3
    exact congrArg SMat.data (Except.ok.inj h3)
  rw [hdata, hsp] at h5
  have hcan : (IsSymm.pattern osp).Canon := Sparsity.ofPred_canon _ _ _
  have hat : ∀ q, (SMat.at' (⟨p.sp, p.sp.nz.map f⟩ : SMat V) q) = if q ∈ p.sp.nz then f q else 0 := fun q =>
    SMat.fill_at' hcanp f q
  have hupper : ∀ i j, (i, j) ∈ (IsSymm.pattern osp).nz → i ≤ j → (i, j) ∈ p.sp.nz := by
    intro i j hij hle
    simp only [IsSymm.pattern, Sparsity.mem_ofPred, decide_eq_true_eq] at hij
    rcases hij.2 with h | h
    · exact hs.mem_sp.2 h
    · have : i = j := by have := h.2; omega
      subst this
      exact hs.mem_sp.2 h
  have hsymm : ∀ i j, (i, j) ∈ (IsSymm.pattern osp).nz → (j, i) ∈ (IsSymm.pattern osp).nz := by
    intro i j
    simp only [IsSymm.pattern, Sparsity.mem_ofPred, decide_eq_true_eq]
    rintro ⟨⟨h1, h2⟩, h3 | h3⟩
    · exact ⟨⟨h2, h1⟩, .inr h3⟩
    · exact ⟨⟨h2, h1⟩, .inl h3⟩
  have hread : ∀ i j, (i, j) ∈ (IsSymm.pattern osp).nz → i ≤ j →
      (SMat.fill (IsSymm.pattern osp) fun q =>
        let r : SMat V := ⟨p.sp, p.sp.nz.map f⟩
        if q.1 = q.2 then r.at' q + r.at' q - r.at' q else if q.1 < q.2 then r.at' q else r.at' (q.2, q.1)).at' (i, j) = f (i, j) ∧
      (SMat.fill (IsSymm.pattern osp) fun q =>
        let r : SMat V := ⟨p.sp, p.sp.nz.map f⟩
        if q.1 = q.2 then r.at' q + r.at' q - r.at' q else if q.1 < q.2 then r.at' q else r.at' (q.2, q.1)).at' (j, i) = f (i, j) := by
    intro i j hij hle
    rw [SMat.fill_at' hcan, SMat.fill_at' hcan, if_pos hij, if_pos (hsymm i j hij)]
    have hm' := hupper i j hij hle
    rcases hle.eq_or_lt with rfl | hlt
    · simp only [if_true, hv, hat, if_pos hm', and_self]
    · simp only [hlt.ne, hlt.ne', hlt, if_false, if_true, not_lt.2 hlt.le, hat, if_pos hm', and_self]
  refine ⟨master', _, ?_, h2, h5, SMat.fill_WF hcan _, rfl, hread, ?_, ?_⟩
  · have h := Obj.setitem_part (⟨c, master, []⟩ : Obj V) hwf (.leaf ha) [] (fun _ => rfl) pay
    rw [List.append_nil] at h
    rw [h]
    simp only
    rw [h1]
    rfl
  · intro hmo hsy q
    have hfm : ∀ q ∈ p.sp.nz, f q = m.at' q := by
      intro q hq
      rcases hf with ⟨_, h⟩ | ⟨h1, h2, h⟩
      · rw [h]
      · rw [h]
        have := hcanp.mem hq
        rw [hs.rows, hs.cols, ← hmo] at this
        have : q = (0, 0) := Prod.ext (by simp only; omega) (by simp only; omega)
        rw [this]
    have hz : ∀ q, q ∉ osp.nz → m.at' q = 0 := by
      intro q hq
      rw [SMat.at', (SMat.nzAt_eq_none hm).2 (by rw [hmo]; exact hq)]
      rfl
    obtain ⟨i, j⟩ := q
    by_cases hq : (i, j) ∈ (IsSymm.pattern osp).nz
    · rcases le_total i j with hle | hle
      · rw [(hread i j hq hle).1]; exact hfm _ (hupper i j hq hle)
      · have hq' := hsymm i j hq
        rw [(hread j i hq' hle).2, hsy i j]; exact hfm _ (hupper j i hq' hle)
    · rw [SMat.fill_at' hcan, if_neg hq]
      simp only [IsSymm.pattern, Sparsity.mem_ofPred, decide_eq_true_eq, not_and_or, not_or] at hq
      have hsq := hs.square
      rcases le_total i j with hle | hle
      · rw [hz]
        intro hmem
        have := hs.canon.mem hmem
        rcases hq with hq | hq
        · omega
        · exact hq.1.elim (fun h => h hmem) (fun h => h hle)
      · rw [hsy i j, hz]
        intro hmem
        have := hs.canon.mem hmem
        rcases hq with hq | hq
        · omega
        · exact hq.2.elim (fun h => h hmem) (fun h => h hle)
  · intro b e' sp' hbp hab hba
    obtain ⟨j, hgj, _⟩ := hb.part hwf hbp
    have hg1 := Obj.getitem_part (⟨c, master', []⟩ : Obj V) hwf hbp [] (fun _ => rfl)
    have hg2 := Obj.getitem_part (⟨c, master, []⟩ : Obj V) hwf hbp [] (fun _ => rfl)
    rw [List.append_nil] at hg1 hg2
    rw [hg1, hg2]
    have : gather master' j = gather master j := gather_congr fun k hk =>
      h4 k (hb.part_disjoint hwf hbp (.leaf ha) hba hab hgj hg hk)
    have hc2 : ∀ m : List V, getCall c.map [] m b (some []) e' =
        (gather m j).bind fun r => if (match e' with
        | none => false
        | some p => p.symm) then triu2symm r else .ok r := by
      intro m
      unfold getCall
      rw [hgj]
      rfl
    simp only [hc2, this]


/-- Element access `P[i, j]` of a matrix. -/
theorem getRC_int {F : Type} {i : IMat} (hw : i.WF) {r c : ℕ} (hr : r < i.sp.rows) (hc : c < i.sp.cols) :
    getRC i (.int r : PIdx F) (.int c) = .ok (match i.nzAt (r, c) with
      | some k => ⟨.dense 1 1, [k]⟩
      | none => ⟨⟨1, 1, []⟩, []⟩) := by
  have h1 : ∀ (n k : ℕ), k < n → selIdx n (.int (k : ℤ) : PIdx F) = .ok [k] := by
    intro n k hk
    simp only [selIdx, normIdx, List.mapM_cons, List.mapM_nil]
    rw [if_pos ⟨by omega, by omega⟩, canonical_nat]
    rfl
  rw [getRC, h1 _ _ hr, h1 _ _ hc]
  show Except.ok _ = _
  congr 1
  rw [subMat]
  have : Sparsity.positions 1 1 = [(0, 0)] := rfl
  simp only [List.length_singleton, this]
  cases h : i.nzAt (r, c) with
  | none => simp [h]
  | some k => simp [h]; rfl

/-- **C55** (elements, what the code does): `s['P', i, j]` reads the stored element for `i ≤ j`, and 0 for `j < i`, whatever the
contents. -/
theorem C55_element (hv : ∀ x : V, x + x - x = x) (s : Struct) (hwf : WFs s.entries s.order) (c : CS)
    (hc : CS.ofStruct s = .ok c) (master : List V) (hlen : master.length = c.size) (a : CIdx) (p : Prim) (osp : Sparsity)
    (ha : IsLeaf s.entries a p) (hs : IsSymm p osp) (i j : ℕ) (hi : i < osp.rows) (hj : j < osp.rows) :
    ∃ R r : SMat V, (⟨c, master, []⟩ : Obj V).getitem (a.map .ofKey) = .ok (.leaf R) ∧
      (⟨c, master, []⟩ : Obj V).getitem (a.map .ofKey ++ [.int i, .int j]) = .ok (.leaf r) ∧ r.sp.rows = 1 ∧ r.sp.cols = 1 ∧
      (i ≤ j → r.at' (0, 0) = R.at' (i, j)) ∧ (j < i → r.at' (0, 0) = 0) := by
  obtain ⟨c', ls, hc', rfl, hb⟩ := ofStruct_built hwf
  rw [hc] at hc'
  cases hc'
  obtain ⟨M, hg, hw, hnd, hin, hsp, hR⟩ := getitem_symm hb hwf hlen ha hs
  have hget := Obj.getitem_part (⟨c, master, []⟩ : Obj V) hwf (.leaf ha) [.int i, .int j] (by simp)
  have hcall : getCall c.map [] master a (some [.int i, .int j]) (some p) =
      (getRC M (.int i : PIdx (PyFn V)) (.int j)).bind fun k => (gather master k).bind fun r => triu2symm r := by
    unfold getCall
    rw [hg]
    simp only [hs.symm]
    rfl
  rw [getRC_int hw (by rw [hsp, hs.rows]; exact hi) (by rw [hsp, hs.cols]; exact hj)] at hcall
  simp only at hget
  rw [hcall] at hget
  have hcanp : p.sp.Canon := ha.canon hwf
  have hcan : (IsSymm.pattern osp).Canon := Sparsity.ofPred_canon _ _ _
  cases hz : M.nzAt (i, j) with
  | none =>
    rw [hz] at hget
    have hij : (i, j) ∉ p.sp.nz := by rw [← hsp]; exact (SMat.nzAt_eq_none hw).1 hz
    refine ⟨_, _, hR, hget, rfl, rfl, fun hle => ?_, fun _ => rfl⟩
    rw [SMat.fill_at' hcan, if_neg]
    · rfl
    · intro hm
      simp only [IsSymm.pattern, Sparsity.mem_ofPred, decide_eq_true_eq] at hm
      rcases hm.2 with h | h
      · exact hij (hs.mem_sp.2 h)
      · have : i = j := by have := h.2; omega
        subst this
        exact hij (hs.mem_sp.2 h)
  | some k =>
    rw [hz] at hget
    obtain ⟨n, hn1, hn2⟩ := (SMat.nzAt_eq_some hw.1).1 hz
    have hk : k < master.length := by rw [hlen]; exact hin k (List.mem_of_getElem? hn2)
    have hmem : (i, j) ∈ p.sp.nz := by rw [← hsp]; exact List.mem_of_getElem? hn1
    have hle := (hs.mem_sp.1 hmem).2
    rw [show ((Except.ok (match (some k : Option ℕ) with
      | some k => (⟨.dense 1 1, [k]⟩ : IMat)
      | none => ⟨⟨1, 1, []⟩, []⟩) : Except PyErr IMat).bind fun k => (gather master k).bind fun r => triu2symm r) =
        (gather master ⟨.dense 1 1, [k]⟩).bind fun r => triu2symm r from rfl,
      gather_ok (by simpa using hk)] at hget
    have ht : triu2symm (⟨.dense 1 1, [master.getD k 0]⟩ : SMat V) = .ok ⟨.dense 1 1, [master.getD k 0]⟩ := by
      show Except.ok _ = _
      congr 1
      show (⟨.dense 1 1, [master.getD k 0 + master.getD k 0 - master.getD k 0]⟩ : SMat V) = _
      rw [hv]
    refine ⟨_, ⟨.dense 1 1, [master.getD k 0]⟩, hR, ?_, rfl, rfl, ?_, fun h => absurd hle (not_le.2 h)⟩
    · rw [hget]
      show (gen (triu2symm (⟨.dense 1 1, [master.getD k 0]⟩ : SMat V))).map _ = _
      rw [ht]
      rfl
    · intro _
      have h1 : (⟨p.sp, M.data.map fun k => master.getD k 0⟩ : SMat V).at' (i, j) = master.getD k 0 := by
        refine SMat.at'_eq (j := n) hcanp (by rw [← hsp]; exact hn1) ?_
        rw [List.getElem?_map, hn2]
        rfl
      rw [SMat.fill_at' hcan, if_pos]
      · simp only [h1]
        rcases hle.eq_or_lt with h | h
        · simp only at h
          rw [if_pos h, hv]; rfl
        · simp only at h
          rw [if_neg h.ne, if_pos h]; rfl
      · simp only [IsSymm.pattern, Sparsity.mem_ofPred, decide_eq_true_eq]
        exact ⟨⟨hi, hj⟩, .inl (hs.mem_sp.1 hmem)⟩

end

/-- **C55** (size): of a dense `n` x `n` symmetric matrix only the upper triangle is stored. -/
theorem C55_size (n : ℕ) (p : Prim) (hs : IsSymm p (.dense n n)) : 2 * p.sp.nz.length = n * (n + 1) := by
  have key : ∀ c ≤ n, 2 * ((Sparsity.positions n c).filter (· ∈ (Sparsity.upper n).nz)).length = c * (c + 1) := by
    intro c
    induction c with
    | zero => intro _; rfl
    | succ c ih =>
      intro hc
      rw [Sparsity.positions_succ, List.filter_append, List.length_append, Nat.mul_add, ih (by omega)]
      have : (((List.range n).map fun i => (i, c)).filter (· ∈ (Sparsity.upper n).nz)).length = c + 1 := by
        rw [List.filter_map, List.length_map]
        have h2 : (List.range n).filter ((fun q : ℕ × ℕ => decide (q ∈ (Sparsity.upper n).nz)) ∘ fun i => (i, c)) =
            (List.range n).filter fun i => i < c + 1 := by
          apply List.filter_congr
          intro i _
          simp only [Function.comp, Sparsity.mem_upper]
          rw [decide_eq_decide]
          omega
        rw [h2]
        have h3 : (List.range n).filter (fun i => i < c + 1) = List.range (c + 1) := by
          obtain ⟨k, rfl⟩ := Nat.exists_eq_add_of_le hc
          rw [List.range_add, List.filter_append, List.filter_eq_self.2 (by simp), List.filter_eq_nil_iff.2 (by simp),
            List.append_nil]
        rw [h3, List.length_range]
      rw [this]
      ring
  rw [hs.sp]
  exact key n le_rfl

/-! ## Instances -/

/-- A symmetric 2x2 entry. -/
def symm2 : Prim := ⟨(Sparsity.dense 2 2).inter (.upper 2), true, some (.dense 2 2), none⟩

theorem symm2_isSymm : IsSymm symm2 (.dense 2 2) := ⟨rfl, rfl, Sparsity.dense_canon _ _, rfl, rfl⟩

theorem symm2_canon : symm2.sp.Canon := by
  show (Sparsity.upper 2).Canon
  exact Sparsity.ofPred_canon _ _ _

/-- **C55 fails** for elements: after writing `[[1, 2], [2, 3]]`, `s['P']` reads it back, `s['P', 0, 1]` reads 2 but `s['P', 1, 0]`
reads 0. -/
theorem C55_refuted : ∃ (s : Struct) (c : CS) (m : List ℚ) (r r' : SMat ℚ), WFs s.entries s.order ∧ CS.ofStruct s = .ok c ∧
    m.length = c.size ∧
    (∃ R, (⟨c, m, []⟩ : Obj ℚ).getitem [.str "P"] = .ok (.leaf R) ∧ R.at' (0, 1) = 2 ∧ R.at' (1, 0) = 2) ∧
    (⟨c, m, []⟩ : Obj ℚ).getitem [.str "P", .int 0, .int 1] = .ok (.leaf r) ∧
    (⟨c, m, []⟩ : Obj ℚ).getitem [.str "P", .int 1, .int 0] = .ok (.leaf r') ∧ r.at' (0, 0) = 2 ∧ r'.at' (0, 0) = 0 := by
  have hwf := oneStruct_wf symm2_canon
  obtain ⟨c, h1, h2, hb⟩ := oneStruct_built symm2_canon
  have hsize : c.size = 3 := by rw [hb.size]; rfl
  have hv : ∀ x : ℚ, x + x - x = x := fun x => by ring
  obtain ⟨m, R, w1, w2, w3, _, w4, w5, _, _⟩ := C55_write_read_partial hv _ hwf c h1 [0, 0, 0] (by rw [hsize]; rfl) [.str "P"] symm2 _
    (oneStruct_leaf _) symm2_isSymm _ _ (.mat ⟨.dense 2 2, [1, 2, 2, 3]⟩) ⟨Sparsity.dense_canon _ _, rfl⟩ _ (.inl ⟨rfl, rfl⟩)
  have hlen : m.length = c.size := by rw [w2, hsize]; rfl
  obtain ⟨R1, r, e1, e2, _, _, e3, _⟩ := C55_element hv _ hwf c h1 m hlen [.str "P"] symm2 _ (oneStruct_leaf _) symm2_isSymm
    0 1 (by decide) (by decide)
  obtain ⟨R2, r', f1, f2, _, _, _, f3⟩ := C55_element hv _ hwf c h1 m hlen [.str "P"] symm2 _ (oneStruct_leaf _) symm2_isSymm
    1 0 (by decide) (by decide)
  have hR : R1 = R := by
    rw [w3] at e1
    cases e1
    rfl
  have h01 := w5 0 1 (by rw [w4]; decide) (by decide)
  have hval : (⟨.dense 2 2, [1, 2, 2, 3]⟩ : SMat ℚ).at' (0, 1) = 2 := rfl
  refine ⟨_, c, m, r, r', hwf, h1, hlen, ⟨R, w3, h01.1.trans hval, h01.2.trans hval⟩, e2, f2, ?_, f3 (by decide)⟩
  rw [e3 (by decide), hR, h01.1, hval]

/-- Writing a matrix that is not symmetric keeps the upper triangle. -/
example : ∃ c, CS.ofStruct (oneStruct symm2) = .ok c ∧ ∃ (m : List ℚ) (R : SMat ℚ),
    (⟨c, [0, 0, 0], []⟩ : Obj ℚ).setitem [.str "P"] (.mat ⟨.dense 2 2, [1, 9, 2, 3]⟩) = (.ok (), ⟨c, m, []⟩) ∧
    (⟨c, m, []⟩ : Obj ℚ).getitem [.str "P"] = .ok (.leaf R) ∧ R.at' (1, 0) = 2 := by
  obtain ⟨c, h1, h2, hb⟩ := oneStruct_built symm2_canon
  have hsize : c.size = 3 := by rw [hb.size]; rfl
  obtain ⟨m, R, w1, w2, w3, _, w4, w5, _, _⟩ := C55_write_read_partial (V := ℚ) (fun x => by ring) _ (oneStruct_wf symm2_canon) c h1 [0, 0, 0]
    (by rw [hsize]; rfl) [.str "P"] symm2 _
    (oneStruct_leaf _) symm2_isSymm _ _ (.mat ⟨.dense 2 2, [1, 9, 2, 3]⟩) ⟨Sparsity.dense_canon _ _, rfl⟩ _ (.inl ⟨rfl, rfl⟩)
  exact ⟨c, h1, m, R, w1, w3, (w5 0 1 (by rw [w4]; decide) (by decide)).2⟩

example : symm2.sp.nz = [(0, 0), (0, 1), (1, 1)] := by decide

/-- C55: for the contents 1, 2, 3 `s['P']` is symmetric, of size 2x2, `s['P', 1, 0]` is 0; 3 of the 4 elements are stored. -/
example : ∃ c, CS.ofStruct (oneStruct symm2) = .ok c ∧ (∃ R : SMat ℚ, (⟨c, [1, 2, 3], []⟩ : Obj ℚ).getitem [.str "P"] = .ok (.leaf R) ∧
    R.sp.rows = 2 ∧ R.at' (0, 1) = R.at' (1, 0)) ∧ (∃ r : SMat ℚ,
    (⟨c, [1, 2, 3], []⟩ : Obj ℚ).getitem [.str "P", .int 1, .int 0] = .ok (.leaf r) ∧ r.at' (0, 0) = 0) ∧ symm2.sp.nz.length = 3 := by
  obtain ⟨c, h1, h2, hb⟩ := oneStruct_built symm2_canon
  have hsize : c.size = 3 := by rw [hb.size]; rfl
  obtain ⟨R, e1, -, e2, -, e3, -⟩ := C55_read_symmetric (V := ℚ) _ (oneStruct_wf symm2_canon) c h1 [1, 2, 3] (by rw [hsize]; rfl) [.str "P"]
    symm2 _ (oneStruct_leaf _) symm2_isSymm
  obtain ⟨_, r, -, f1, -, -, -, f2⟩ := C55_element (V := ℚ) (fun x => by ring) _ (oneStruct_wf symm2_canon) c h1 [1, 2, 3] (by rw [hsize]; rfl)
    [.str "P"] symm2 _ (oneStruct_leaf _) symm2_isSymm 1 0 (by decide) (by decide)
  have := C55_size 2 symm2 symm2_isSymm
  exact ⟨c, h1, ⟨R, e1, e2, e3 0 1⟩, ⟨r, f1, f2 (by decide)⟩, by omega⟩

end CE.St
