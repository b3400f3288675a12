import Verif.Struct.PropsExtra
import Verif.Struct.PropsProduct

/-! # Matrices and `index[...]` as extra indices: C107 -/

namespace CE.St

/-! ## What a matrix selects -/

/-- A matrix of numbers with pattern `m`, used as an index of a matrix with pattern `sp`, is turned: one is a column and the other a row
(CasADi). -/
def Turned (sp m : Sparsity) : Prop := (sp.cols = 1 ∧ m.rows = 1) ∨ (sp.rows = 1 ∧ m.cols = 1)

instance (sp m : Sparsity) : Decidable (Turned sp m) := by unfold Turned; infer_instance

/-- `v` has, with the pattern of `m`, turned if necessary, the elements of `u` whose column-major numbers are in `m`; where `u` has a
structural zero, so has `v`. -/
structure Numbered {U : Type} (u : SMat U) (m : SMat ℤ) (v : SMat U) : Prop where
  wf : v.WF
  shape : ¬ Turned u.sp m.sp → v.sp.rows = m.sp.rows ∧ v.sp.cols = m.sp.cols
  turned : Turned u.sp m.sp → v.sp.rows = m.sp.cols ∧ v.sp.cols = m.sp.rows
  elem : ∀ r k, v.nzAt (if Turned u.sp m.sp then (k, r) else (r, k)) =
    (m.nzAt (r, k)).bind fun z => u.nzAt ((z % (u.sp.rows * u.sp.cols : ℕ)).toNat % u.sp.rows,
      (z % (u.sp.rows * u.sp.cols : ℕ)).toNat / u.sp.rows)

/-! ## Lemmas -/

theorem partMat_nzAt_iff (i : IMat) (r c : ℕ) (f : ℕ × ℕ → Option (ℕ × ℕ)) (p : ℕ × ℕ) (v : ℕ) :
    (partMat i r c f).nzAt p = some v ↔ (p.1 < r ∧ p.2 < c) ∧ (f p).bind i.nzAt = some v := by
  rw [SMat.nzAt_eq_some (partMat_WF i r c f).1]
  simp only [partMat, List.getElem?_map, Option.map_eq_some_iff]
  constructor
  · rintro ⟨j, ⟨x, hx, rfl⟩, y, hy, rfl⟩
    rw [hx] at hy
    cases hy
    obtain ⟨q, hq, e⟩ := List.mem_filterMap.1 (List.mem_of_getElem? hx)
    obtain ⟨w, hw, rfl⟩ := Option.map_eq_some_iff.1 e
    exact ⟨Sparsity.mem_positions.1 hq, hw⟩
  · rintro ⟨hp, hv⟩
    have : (p, v) ∈ (Sparsity.positions r c).filterMap fun p => ((f p).bind i.nzAt).map fun v => (p, v) :=
      List.mem_filterMap.2 ⟨p, Sparsity.mem_positions.2 hp, by rw [hv]; rfl⟩
    obtain ⟨j, hj⟩ := List.getElem?_of_mem this
    exact ⟨j, ⟨_, hj, rfl⟩, _, hj, rfl⟩

theorem swap_positions {r c : ℕ} (h : r = 1 ∨ c = 1) :
    Sparsity.positions c r = (Sparsity.positions r c).map fun p => (p.2, p.1) := by
  rcases h with rfl | rfl
  · simp [Sparsity.positions, List.flatMap_def, Function.comp_def]
    induction List.range c with
    | nil => rfl
    | cons a l ih => simp [ih]
  · simp [Sparsity.positions, List.flatMap_def, Function.comp_def]
    induction List.range r with
    | nil => rfl
    | cons a l ih => simp [ih]

/-- The nonzeros of a vector keep their order when it is transposed. -/
theorem Sparsity.T_nz {s : Sparsity} (hs : s.Canon) (h : s.rows = 1 ∨ s.cols = 1) : s.T.nz = s.nz.map fun p => (p.2, p.1) := by
  have e1 : s.nz = (positions s.rows s.cols).filter (· ∈ s.nz) := Canon.ext.sublist_eq_filter hs (positions_nodup _ _)
  conv_rhs => rw [e1]
  rw [T, ofPred]
  simp only
  rw [swap_positions h, List.filter_map]
  rfl

theorem lookup_swap {β : Type} (l : List (ℕ × ℕ)) (d : List β) (r k : ℕ) :
    ((l.map fun p => (p.2, p.1)).zip d).lookup (k, r) = (l.zip d).lookup (r, k) := by
  induction l generalizing d with
  | nil => rfl
  | cons a l ih =>
    cases d with
    | nil => rfl
    | cons b d =>
      rw [List.map_cons, List.zip_cons_cons, List.zip_cons_cons, List.lookup_cons, List.lookup_cons, ih]
      have : ((k, r) == (a.2, a.1)) = ((r, k) == a) := by
        rw [Bool.eq_iff_iff]
        simp only [beq_iff_eq, Prod.ext_iff]
        tauto
      rw [this]

theorem nzAt_T {β : Type} {s : Sparsity} (hs : s.Canon) (h : s.rows = 1 ∨ s.cols = 1) (d : List β) (r k : ℕ) :
    SMat.nzAt ⟨s.T, d⟩ (k, r) = SMat.nzAt ⟨s, d⟩ (r, k) := by
  rw [SMat.nzAt, SMat.nzAt]
  simp only
  rw [Sparsity.T_nz hs h, lookup_swap]

/-- The numbers are the ones of the specification. -/
theorem normIdx_mod {n : ℕ} {l : List ℤ} (h : ∀ z ∈ l, -(n : ℤ) ≤ z ∧ z < n) :
    normIdx n l = .ok (l.map fun z => (z % (n : ℤ)).toNat) := by
  rw [normIdx_iff]
  induction l with
  | nil => exact .nil
  | cons z l ih =>
    have hz := h z List.mem_cons_self
    refine .cons ⟨hz.1, hz.2, ?_⟩ (ih fun y hy => h y (List.mem_cons_of_mem _ hy))
    have : (0 : ℤ) < n := by omega
    exact Int.toNat_of_nonneg (Int.emod_nonneg _ (by omega))

/-- `i[m]` has the elements with the numbers in `m`. -/
theorem getMat_numbered {i : IMat} {m : SMat ℤ} (hm : m.WF)
    (hr : ∀ z ∈ m.data, -((i.sp.rows * i.sp.cols : ℕ) : ℤ) ≤ z ∧ z < (i.sp.rows * i.sp.cols : ℕ)) :
    ∃ j, getMat i m = .ok j ∧ Numbered i m j := by
  rw [getMat, normIdx_mod hr]
  refine ⟨_, rfl, partMat_WF _ _ _ _, fun h => ?_, fun h => ?_, fun r k => ?_⟩
  · have h' : ¬ ((i.sp.cols = 1 ∧ m.sp.rows = 1) ∨ (i.sp.rows = 1 ∧ m.sp.cols = 1)) := h
    simp only [if_neg h', partMat, and_self]
  · have h' : ((i.sp.cols = 1 ∧ m.sp.rows = 1) ∨ (i.sp.rows = 1 ∧ m.sp.cols = 1)) := h
    simp only [if_pos h', partMat, Sparsity.T, Sparsity.ofPred, and_self]
  · have hd : ∀ q, SMat.nzAt ⟨m.sp, m.data.map fun z => (z % ((i.sp.rows * i.sp.cols : ℕ) : ℤ)).toNat⟩ q =
        (m.nzAt q).map fun z => (z % ((i.sp.rows * i.sp.cols : ℕ) : ℤ)).toNat := fun q => SMat.nzAt_mapData _ m q
    have hin : ∀ q v, m.nzAt q = some v → q.1 < m.sp.rows ∧ q.2 < m.sp.cols := by
      intro q v hq
      obtain ⟨j, h1, _⟩ := (SMat.nzAt_eq_some hm.1).1 hq
      exact hm.1.mem (List.mem_of_getElem? h1)
    by_cases h : Turned i.sp m.sp
    · have h' : ((i.sp.cols = 1 ∧ m.sp.rows = 1) ∨ (i.sp.rows = 1 ∧ m.sp.cols = 1)) := h
      simp only [if_pos h, if_pos h']
      apply Option.ext
      intro v
      rw [partMat_nzAt_iff, nzAt_T hm.1 (by rcases h' with h | h; exact .inl h.2; exact .inr h.2), hd]
      cases hq : m.nzAt (r, k) with
      | none => simp
      | some z =>
        have := hin _ _ hq
        simp [Sparsity.T, Sparsity.ofPred, this.1, this.2]
    · have h' : ¬ ((i.sp.cols = 1 ∧ m.sp.rows = 1) ∨ (i.sp.rows = 1 ∧ m.sp.cols = 1)) := h
      simp only [if_neg h, if_neg h']
      apply Option.ext
      intro v
      rw [partMat_nzAt_iff, hd]
      cases hq : m.nzAt (r, k) with
      | none => simp
      | some z =>
        have := hin _ _ hq
        simp [this.1, this.2]

theorem Numbered.mapData {U W : Type} {u v : SMat U} {m : SMat ℤ} (h : Numbered u m v) (g : U → W) :
    Numbered (u.mapData g) m (v.mapData g) where
  wf := ⟨h.wf.1, by rw [SMat.mapData]; simp [h.wf.2]⟩
  shape := h.shape
  turned := h.turned
  elem r k := by
    rw [SMat.nzAt_mapData]
    show (v.nzAt (if Turned u.sp m.sp then _ else _)).map g = (m.nzAt (r, k)).bind fun z => (u.mapData g).nzAt _
    rw [h.elem]
    cases m.nzAt (r, k) with
    | none => rfl
    | some z => exact (SMat.nzAt_mapData g u _).symm

/-- Every nonzero of the result is one of the matrix. -/
theorem Numbered.mem {u v : IMat} (hu : u.WF) {m : SMat ℤ} (h : Numbered u m v) {k : ℕ} (hk : k ∈ v.data) : k ∈ u.data := by
  obtain ⟨t, ht⟩ := List.getElem?_of_mem hk
  have htl : t < v.sp.nz.length := by
    rw [← h.wf.2]
    exact (List.getElem?_eq_some_iff.1 ht).1
  have hq := (SMat.nzAt_eq_some h.wf.1).2 ⟨t, List.getElem?_eq_getElem htl, ht⟩
  generalize v.sp.nz[t] = q at hq
  have key : ∀ z : ℤ, u.nzAt ((z % (u.sp.rows * u.sp.cols : ℕ)).toNat % u.sp.rows,
      (z % (u.sp.rows * u.sp.cols : ℕ)).toNat / u.sp.rows) = some k → k ∈ u.data := by
    intro z hz
    obtain ⟨j, _, h2⟩ := (SMat.nzAt_eq_some hu.1).1 hz
    exact List.mem_of_getElem? h2
  by_cases ht : Turned u.sp m.sp
  · have := h.elem q.2 q.1
    rw [if_pos ht, show (q.1, q.2) = q from rfl, hq] at this
    obtain ⟨z, _, hz⟩ := Option.bind_eq_some_iff.1 this.symm
    exact key z hz
  · have := h.elem q.1 q.2
    rw [if_neg ht, show (q.1, q.2) = q from rfl, hq] at this
    obtain ⟨z, _, hz⟩ := Option.bind_eq_some_iff.1 this.symm
    exact key z hz

/-- No element is selected twice. -/
theorem Numbered.nodup {u v : IMat} (hu : u.WF) (hn : u.data.Nodup) {m : SMat ℤ} (hm : m.WF)
    (hr : ∀ z ∈ m.data, -((u.sp.rows * u.sp.cols : ℕ) : ℤ) ≤ z ∧ z < (u.sp.rows * u.sp.cols : ℕ))
    (hd : (m.data.map (· % ((u.sp.rows * u.sp.cols : ℕ) : ℤ))).Nodup) (h : Numbered u m v) : v.data.Nodup := by
  set n : ℕ := u.sp.rows * u.sp.cols with hn'
  -- the position in `m` of an element of `v`
  have pos : ∀ q x, v.nzAt q = some x → ∃ z, m.nzAt (if Turned u.sp m.sp then (q.2, q.1) else q) = some z ∧
      u.nzAt ((z % (n : ℤ)).toNat % u.sp.rows, (z % (n : ℤ)).toNat / u.sp.rows) = some x := by
    intro q x hq
    by_cases ht : Turned u.sp m.sp
    · have := h.elem q.2 q.1
      rw [if_pos ht, show (q.1, q.2) = q from rfl, hq] at this
      rw [if_pos ht]
      exact Option.bind_eq_some_iff.1 this.symm
    · have := h.elem q.1 q.2
      rw [if_neg ht, show (q.1, q.2) = q from rfl, hq] at this
      rw [if_neg ht]
      exact Option.bind_eq_some_iff.1 this.symm
  rw [List.nodup_iff_injective_getElem]
  rintro ⟨j, hj⟩ ⟨j', hj'⟩ e
  simp only at e
  have hl := h.wf.2
  have h1 := (SMat.nzAt_eq_some h.wf.1).2 ⟨j, List.getElem?_eq_getElem (by omega), List.getElem?_eq_getElem hj⟩
  have h2 := (SMat.nzAt_eq_some h.wf.1).2 ⟨j', List.getElem?_eq_getElem (by omega), List.getElem?_eq_getElem hj'⟩
  obtain ⟨z, hz, hx⟩ := pos _ _ h1
  obtain ⟨z', hz', hx'⟩ := pos _ _ h2
  rw [← e] at hx'
  have hf := nzAt_inj hu hn hx hx'
  have hrows : ∀ {z : ℤ}, z ∈ m.data → 0 < u.sp.rows ∧ (0 : ℤ) < n := by
    intro z hz
    have := hr z hz
    have h0 : 0 < n := by omega
    exact ⟨Nat.pos_of_mul_pos_right h0, by omega⟩
  obtain ⟨t, ht1, ht2⟩ := (SMat.nzAt_eq_some hm.1).1 hz
  obtain ⟨t', ht1', ht2'⟩ := (SMat.nzAt_eq_some hm.1).1 hz'
  obtain ⟨hp, hnp⟩ := hrows (List.mem_of_getElem? ht2)
  have hnum : (z % (n : ℤ)).toNat = (z' % (n : ℤ)).toNat := by
    rw [Prod.ext_iff] at hf
    simp only at hf
    rw [← Nat.div_add_mod (z % (n : ℤ)).toNat u.sp.rows, ← Nat.div_add_mod (z' % (n : ℤ)).toNat u.sp.rows, hf.1, hf.2]
  have hmod : z % (n : ℤ) = z' % (n : ℤ) := by
    have a1 := Int.emod_nonneg z (by omega : (n : ℤ) ≠ 0)
    have a2 := Int.emod_nonneg z' (by omega : (n : ℤ) ≠ 0)
    omega
  have htt : t = t' := by
    obtain ⟨l1, e1⟩ := List.getElem?_eq_some_iff.1 ht2
    obtain ⟨l2, e2⟩ := List.getElem?_eq_some_iff.1 ht2'
    refine (List.Nodup.getElem_inj_iff hd (hi := by rw [List.length_map]; exact l1) (hj := by rw [List.length_map]; exact l2)).1 ?_
    rw [List.getElem_map, List.getElem_map, e1, e2]
    exact hmod
  subst htt
  rw [ht1] at ht1'
  have hq : v.sp.nz[j] = v.sp.nz[j'] := by
    have := Option.some.inj ht1'
    split at this
    · rw [Prod.ext_iff] at this ⊢
      exact ⟨this.2, this.1⟩
    · exact this
  exact Fin.ext ((List.Nodup.getElem_inj_iff h.wf.1.nodup).1 hq)

variable {V : Type}

theorem imCall_mat {c : CS} {a : CIdx} {i : IMat} {p : Prim} (hg : dictGet c.map a = some i) (m : SMat ℤ) :
    imCall (F := PyFn V) applyIdx c.map a (some [.mat m]) (some p) = getMat i m := by
  rw [imCall, hg]
  simp only [Option.getD_some]
  rw [performExtraIndex]
  · rfl
  · simp
  · simp

/-! ## C107 -/

section
variable [Zero V] [Add V] [Sub V]

/-- **C107** (matrices, reading): for an element `a` (not of type 'symm') and a matrix `m` of numbers of its elements (counted column by
column, from the end if negative), `s[a, m]` has the pattern of `m` (the transposed one if `s[a]` is a column and `m` a row, or the other
way round) and at each position the element with this number. -/
theorem C107_matrix (s : Struct) (hwf : WFs s.entries s.order) (c : CS) (hc : CS.ofStruct s = .ok c) (master : List V)
    (hlen : master.length = c.size) (a : CIdx) (p : Prim) (ha : IsLeaf s.entries a p) (hs : p.symm = false)
    (m : SMat ℤ) (hm : m.WF) (hr : ∀ z ∈ m.data, -((p.sp.rows * p.sp.cols : ℕ) : ℤ) ≤ z ∧ z < (p.sp.rows * p.sp.cols : ℕ)) :
    ∃ u v, (⟨c, master, []⟩ : Obj V).getitem (a.map .ofKey) = .ok (.leaf u) ∧ u.sp = p.sp ∧
      (⟨c, master, []⟩ : Obj V).getitem (a.map .ofKey ++ [.mat m]) = .ok (.leaf v) ∧ Numbered u m v := by
  obtain ⟨c', ls, hc', rfl, hb⟩ := ofStruct_built hwf
  rw [hc] at hc'
  cases hc'
  have hs' : ∀ p', some p = some p' → p'.symm = false := by rintro _ ⟨⟩; exact hs
  obtain ⟨i, hg, hw, hnd, hin, hsp⟩ := hb.part hwf (.leaf ha)
  obtain ⟨i', hg', _, _, _, _, h1⟩ := getitem_plain hb hwf hlen (.leaf ha) hs'
  rw [hg] at hg'
  cases hg'
  obtain ⟨j, hj, hn⟩ := getMat_numbered (i := i) hm (by rw [hsp]; exact hr)
  have e : (⟨p.sp, i.data.map fun j => master.getD j 0⟩ : SMat V) = i.mapData fun j => master.getD j 0 := by
    rw [← hsp]; rfl
  refine ⟨_, j.mapData fun j => master.getD j 0, h1, rfl, ?_, ?_⟩
  · rw [Obj.getitem_part _ hwf (.leaf ha) _ (by simp)]
    simp only
    rw [getCall_plain _ _ _ _ _ hs' ((imCall_mat hg m).trans hj),
      gather_ok (by intro k hk; rw [hlen]; exact hin k (hn.mem hw hk))]
    rfl
  · rw [e]
    exact hn.mapData _

/-- **C107** (matrices, writing): after `s[a, m] = v` for a value that fits (no element selected twice), `s[a, m]` reads `v`, and nothing
else has changed. -/
theorem C107_matrix_write (s : Struct) (hwf : WFs s.entries s.order) (c : CS) (hc : CS.ofStruct s = .ok c) (master : List V)
    (hlen : master.length = c.size) (a : CIdx) (p : Prim) (ha : IsLeaf s.entries a p) (hs : p.symm = false)
    (m : SMat ℤ) (hm : m.WF) (hr : ∀ z ∈ m.data, -((p.sp.rows * p.sp.cols : ℕ) : ℤ) ≤ z ∧ z < (p.sp.rows * p.sp.cols : ℕ))
    (hd : (m.data.map (· % ((p.sp.rows * p.sp.cols : ℕ) : ℤ))).Nodup) :
    ∃ i j : IMat, c.i (V := V) (a.map .ofKey) = .ok (.leaf i) ∧ i.sp = p.sp ∧ Numbered i m j ∧ j.data.Nodup ∧
      ∀ (pay : Pay V) (w : SMat V), IsValue pay w → w.WF → ∀ g, Fits j.sp w g →
        ∃ master', (⟨c, master, []⟩ : Obj V).setitem (a.map .ofKey ++ [.mat m]) pay = (.ok (), ⟨c, master', []⟩) ∧
          master'.length = master.length ∧
          (⟨c, master', []⟩ : Obj V).getitem (a.map .ofKey ++ [.mat m]) = .ok (.leaf ⟨j.sp, j.sp.nz.map g⟩) ∧
          ∀ k ∉ j.data, master'[k]? = master[k]? := by
  obtain ⟨c', ls, hc', rfl, hb⟩ := ofStruct_built hwf
  rw [hc] at hc'
  cases hc'
  have hs' : ∀ p', some p = some p' → p'.symm = false := by rintro _ ⟨⟩; exact hs
  obtain ⟨i, hg, hw, hnd, hin, hsp⟩ := hb.part hwf (.leaf ha)
  obtain ⟨j, hj, hn⟩ := getMat_numbered (i := i) hm (by rw [hsp]; exact hr)
  refine ⟨i, j, by rw [c.i_leaf hwf ha, hg], hsp, hn, hn.nodup hw hnd hm (by rw [hsp]; exact hr) (by rw [hsp]; exact hd),
    fun pay w hp hw' g hg' => ?_⟩
  refine C43_extra _ hwf c hc master hlen a (some p) _ (.leaf ha) hs' [.mat m] (by simp) j ?_ hn.wf
    (hn.nodup hw hnd hm (by rw [hsp]; exact hr) (by rw [hsp]; exact hd))
    (fun k hk => hin k (hn.mem hw hk)) pay w hp hw' g hg'
  rw [c.i_part hwf (.leaf ha) _ (by simp), imCall_mat hg, hj]
  rfl

/-- **C107** (matrices): a number that is out of range raises, and nothing is changed. -/
theorem C107_matrix_raise (s : Struct) (hwf : WFs s.entries s.order) (c : CS) (hc : CS.ofStruct s = .ok c) (master : List V)
    (a : CIdx) (p : Prim) (ha : IsLeaf s.entries a p) (m : SMat ℤ) (z : ℤ) (hz : z ∈ m.data)
    (hr : z < -((p.sp.rows * p.sp.cols : ℕ) : ℤ) ∨ ((p.sp.rows * p.sp.cols : ℕ) : ℤ) ≤ z) :
    (⟨c, master, []⟩ : Obj V).getitem (a.map .ofKey ++ [.mat m]) = .error .generic ∧
      ∀ pay, (⟨c, master, []⟩ : Obj V).setitem (a.map .ofKey ++ [.mat m]) pay = (.error .generic, ⟨c, master, []⟩) := by
  obtain ⟨c', ls, hc', rfl, hb⟩ := ofStruct_built hwf
  rw [hc] at hc'
  cases hc'
  obtain ⟨i, hg, hw, hnd, hin, hsp⟩ := hb.part hwf (.leaf ha)
  have he : ∃ e, performExtraIndex (applyIdx (V := V)) i (some p) false [.mat m] = .error e := by
    have h1 : performExtraIndex (applyIdx (V := V)) i (some p) false [.mat m] = getMat i m := by
      rw [performExtraIndex]
      · rfl
      · simp
      · simp
    rw [h1, getMat]
    cases h : normIdx (i.sp.rows * i.sp.cols) m.data with
    | error e => exact ⟨e, rfl⟩
    | ok l =>
      rw [normIdx_iff, hsp] at h
      exfalso
      have : ∀ {l l'}, List.Forall₂ (Denotes (p.sp.rows * p.sp.cols)) l l' → z ∈ l → False := by
        intro l l' h hz
        induction h with
        | nil => cases hz
        | cons h _ ih =>
          rcases List.mem_cons.1 hz with rfl | h'
          · have := h.1; have := h.2.1; omega
          · exact ih h'
      exact this h hz
  obtain ⟨e, he⟩ := he
  constructor
  · rw [Obj.getitem_part _ hwf (.leaf ha) _ (by simp), getCall, hg]
    simp only [dictGet, List.lookup_nil, Option.getD_some, he]
    rfl
  · intro pay
    rw [Obj.setitem_part _ hwf (.leaf ha) _ (by simp), setCall]
    cases pay.toMat with
    | error _ => rfl
    | ok m =>
      simp only [hg, Option.getD_some, he]
      rfl

theorem delegation_index {F : Type} {p : Prim} {fs} {d : CS} {k : ℕ} (hss : p.ss = some fs) (hk : fs[k]? = some (some d.shapeFns))
    {b : CIdx} {j : IMat} (hj : d.i (V := Empty) (b.map .ofKey) = .ok (.leaf j)) :
    delegation (F := F) (.index b) (some p) k = .ok (.mat ⟨j.sp, j.data.map fun k : ℕ => (k : ℤ)⟩) := by
  have hm : (b.map (PIdx.ofKey (F := Empty))).map (PIdx.lift (F := PyFn Empty)) = b.map .ofKey := by
    rw [List.map_map]
    exact List.map_congr_left fun k _ => by cases k <;> rfl
  simp only [delegation, hss, hk, CS.shapeFns, hm, hj]
  rfl

/-- **C107** (`index`): for an element `a` whose (first) `shapestruct` is `t`, and a part `b` of `t`, `index[b]` stands for the matrix
`t.i[b]`: `s[a, index[b]]` reads and writes what `s[a, t.i[b]]` does. -/
theorem C107_index (s : Struct) (hwf : WFs s.entries s.order) (c : CS) (hc : CS.ofStruct s = .ok c) (master : List V)
    (a : CIdx) (p : Prim) (ha : IsLeaf s.entries a p) (t : Struct) (hwt : WFs t.entries t.order) (d : CS)
    (hd : CS.ofStruct t = .ok d) (fs : List (Option ShapeFns)) (hss : p.ss = some fs) (h0 : fs[0]? = some (some d.shapeFns))
    (b : CIdx) (e : Option Prim) (sp : Sparsity) (hb : IsPart t.entries b e sp) :
    ∃ j : IMat, d.i (V := V) (b.map .ofKey) = .ok (.leaf j) ∧ j.sp = sp ∧ j.WF ∧ (∀ k ∈ j.data, k < d.size) ∧ j.data.Nodup ∧
      (⟨c, master, []⟩ : Obj V).getitem (a.map .ofKey ++ [.index b]) =
        (⟨c, master, []⟩ : Obj V).getitem (a.map .ofKey ++ [.mat (j.mapData fun k : ℕ => (k : ℤ))]) ∧
      ∀ pay, (⟨c, master, []⟩ : Obj V).setitem (a.map .ofKey ++ [.index b]) pay =
        (⟨c, master, []⟩ : Obj V).setitem (a.map .ofKey ++ [.mat (j.mapData fun k : ℕ => (k : ℤ))]) pay := by
  obtain ⟨c', ls, hc', rfl, hbc⟩ := ofStruct_built hwf
  rw [hc] at hc'
  cases hc'
  obtain ⟨d', ls', hd', rfl, hbd⟩ := ofStruct_built hwt
  rw [hd] at hd'
  cases hd'
  obtain ⟨j, hg, hw, hnd, hin, rfl⟩ := hbd.part hwt hb
  have hi : ∀ V, d.i (V := V) (b.map .ofKey ++ []) = .ok (.leaf j) := by
    intro V
    rw [d.i_part hwt hb [] (fun _ => rfl), imCall_part e hg]
    rfl
  simp only [List.append_nil] at hi
  have hx : ∀ i fl, performExtraIndex (applyIdx (V := V)) i (some p) fl [.index b] =
      performExtraIndex (applyIdx (V := V)) i (some p) fl [.mat (j.mapData fun k : ℕ => (k : ℤ))] := by
    intro i fl
    rw [performExtraIndex, delegation_index hss h0 (hi Empty), performExtraIndex]
    · rfl
    all_goals simp
  refine ⟨j, hi V, rfl, hw, hin, hnd, ?_, fun pay => ?_⟩
  · rw [Obj.getitem_part _ hwf (.leaf ha) _ (by simp), Obj.getitem_part _ hwf (.leaf ha) _ (by simp), getCall, getCall]
    simp only [Option.getD_some, dictGet, List.lookup_nil, hx]
  · rw [Obj.setitem_part _ hwf (.leaf ha) _ (by simp), Obj.setitem_part _ hwf (.leaf ha) _ (by simp), setCall, setCall]
    cases pay.toMat with
    | error _ => rfl
    | ok m =>
      cases dictGet c.map a with
      | none => rfl
      | some i => simp only [Option.getD_some, hx]

omit [Zero V] [Add V] [Sub V] in
theorem SMat.ext_nzAt {m m' : SMat V} (hm : m.WF) (hm' : m'.WF) (hr : m.sp.rows = m'.sp.rows) (hc : m.sp.cols = m'.sp.cols)
    (h : ∀ r k, m.nzAt (r, k) = m'.nzAt (r, k)) : m = m' := by
  have hsp : m.sp = m'.sp := by
    apply Sparsity.Canon.ext hm.1 hm'.1 hr hc
    rintro ⟨r, k⟩
    rw [← not_iff_not, ← SMat.nzAt_eq_none hm, ← SMat.nzAt_eq_none hm', h]
  obtain ⟨sp, d⟩ := m
  obtain ⟨sp', d'⟩ := m'
  simp only at hsp
  subst hsp
  congr 1
  have hl : d.length = sp.nz.length := hm.2
  have hl' : d'.length = sp.nz.length := hm'.2
  apply List.ext_getElem (by rw [hl, hl'])
  intro n h1 h2
  have e1 := (SMat.nzAt_eq_some hm.1).2 ⟨n, List.getElem?_eq_getElem (show n < sp.nz.length by omega), List.getElem?_eq_getElem h1⟩
  have e2 := (SMat.nzAt_eq_some hm'.1).2 ⟨n, List.getElem?_eq_getElem (show n < sp.nz.length by omega), List.getElem?_eq_getElem h2⟩
  have := e1.symm.trans ((h _ _).trans e2)
  exact Option.some.inj this

omit [Zero V] [Add V] [Sub V] in
theorem nzAt_column (n : ℕ) (l : List V) (hl : l.length = n) (k : ℕ) (hk : k < n) :
    SMat.nzAt ⟨.dense n 1, l⟩ (k % n, k / n) = l[k]? := by
  rw [Nat.mod_eq_of_lt hk, Nat.div_eq_of_lt hk, List.getElem?_eq_getElem (by omega)]
  refine (SMat.nzAt_eq_some (Sparsity.dense_canon n 1)).2 ⟨k, ?_, List.getElem?_eq_getElem (show k < l.length by omega)⟩
  simp [Sparsity.dense, Sparsity.positions, hk]

omit [Zero V] [Add V] [Sub V] in
/-- The elements of a column with the numbers `j`. -/
theorem Numbered.column {U : Type} {n : ℕ} {l : List U} (hl : l.length = n) {j : IMat} (hj : j.WF) (hin : ∀ k ∈ j.data, k < n)
    {v : SMat U} (h : Numbered ⟨.dense n 1, l⟩ (j.mapData fun k : ℕ => (k : ℤ)) v) (r k : ℕ) :
    v.nzAt (if j.sp.rows = 1 ∨ (n = 1 ∧ j.sp.cols = 1) then (k, r) else (r, k)) = (j.nzAt (r, k)).bind fun x => l[x]? := by
  have e := h.elem r k
  rw [SMat.nzAt_mapData] at e
  have ht : Turned (Sparsity.dense n 1) j.sp ↔ (j.sp.rows = 1 ∨ (n = 1 ∧ j.sp.cols = 1)) := by
    simp [Turned, Sparsity.dense]
  have ht' : Turned (⟨.dense n 1, l⟩ : SMat U).sp (j.mapData fun k : ℕ => (k : ℤ)).sp ↔
      (j.sp.rows = 1 ∨ (n = 1 ∧ j.sp.cols = 1)) := ht
  rw [if_congr ht' rfl rfl] at e
  rw [e]
  cases hx : j.nzAt (r, k) with
  | none => rfl
  | some x =>
    obtain ⟨q, _, h2⟩ := (SMat.nzAt_eq_some hj.1).1 hx
    have hlt := hin x (List.mem_of_getElem? h2)
    have hz : (((x : ℕ) : ℤ) % ((n * 1 : ℕ) : ℤ)).toNat = x := by
      rw [mul_one, ← Int.natCast_mod, Int.toNat_natCast, Nat.mod_eq_of_lt hlt]
    show SMat.nzAt ⟨.dense n 1, l⟩ ((((x : ℕ) : ℤ) % ((n * 1 : ℕ) : ℤ)).toNat % n, (((x : ℕ) : ℤ) % ((n * 1 : ℕ) : ℤ)).toNat / n) = l[x]?
    rw [hz]
    exact nzAt_column n l hl x hlt

/-- **C107** (`index` and cast): for an element `a` that is a column with `shapestruct=t`, `s[a, index[b]]` reads what the cast
`t(s[a])[b]` reads, for a part `b` of `t` (not of type 'symm'); transposed if this is a row (or, if `t` has size 1, a column). -/
theorem C107_cast (s : Struct) (hwf : WFs s.entries s.order) (c : CS) (hc : CS.ofStruct s = .ok c) (master : List V)
    (hlen : master.length = c.size) (a : CIdx) (p : Prim) (ha : IsLeaf s.entries a p) (hs : p.symm = false)
    (t : Struct) (hwt : WFs t.entries t.order) (d : CS)
    (hd : CS.ofStruct t = .ok d) (fs : List (Option ShapeFns)) (hss : p.ss = some fs) (h0 : fs[0]? = some (some d.shapeFns))
    (hp : p.sp = .dense d.size 1)
    (b : CIdx) (e : Option Prim) (sp : Sparsity) (hb : IsPart t.entries b e sp) (hs' : ∀ q, e = some q → q.symm = false) (nan : V) :
    ∃ u o v w, (⟨c, master, []⟩ : Obj V).getitem (a.map .ofKey) = .ok (.leaf u) ∧ callDM nan d (.mat u) = .ok o ∧
      o.getitem (b.map .ofKey) = .ok (.leaf v) ∧ v.sp = sp ∧
      (⟨c, master, []⟩ : Obj V).getitem (a.map .ofKey ++ [.index b]) = .ok (.leaf w) ∧ w.WF ∧
      (¬ (sp.rows = 1 ∨ (d.size = 1 ∧ sp.cols = 1)) → w = v) ∧
      ((sp.rows = 1 ∨ (d.size = 1 ∧ sp.cols = 1)) → w.sp.rows = sp.cols ∧ w.sp.cols = sp.rows ∧
        ∀ r k, w.nzAt (k, r) = v.nzAt (r, k)) := by
  obtain ⟨j, h1, rfl, hw, hin, hnd, h2, _⟩ := C107_index s hwf c hc master a p ha t hwt d hd fs hss h0 b e sp hb
  obtain ⟨u, w, hu, hup, hw1, hw2⟩ := C107_matrix s hwf c hc master hlen a p ha hs (j.mapData fun k : ℕ => (k : ℤ))
    ⟨hw.1, by rw [SMat.mapData]; simp [hw.2]⟩ (by
      intro z hz
      obtain ⟨k, hk, rfl⟩ := List.mem_map.1 hz
      have := hin k hk
      rw [hp]
      simp only [Sparsity.dense, mul_one]
      omega)
  obtain ⟨c', ls, hc', rfl, hbc⟩ := ofStruct_built hwf
  rw [hc] at hc'
  cases hc'
  obtain ⟨d', ls', hd', rfl, hbd⟩ := ofStruct_built hwt
  rw [hd] at hd'
  cases hd'
  obtain ⟨i, hg, hi1, hi2, -, -, hi3⟩ := getitem_plain (master := master) hbc hwf hlen (.leaf ha) (by rintro _ ⟨⟩; exact hs)
  have hul : u.data.length = d.size := by
    rw [hu] at hi3
    cases hi3
    rw [List.length_map, hi2, hp]
    simp [Sparsity.dense, Sparsity.positions_length]
  obtain ⟨usp, ul⟩ := u
  simp only at hup hul
  rw [hp] at hup
  subst hup
  obtain ⟨i', hg', hi1', hi2', -, -, hi3'⟩ := getitem_plain (master := ul) hbd hwt hul hb hs'
  have hj' : dictGet d.map b = some j := by
    obtain ⟨j', hgj, _⟩ := hbd.part hwt hb
    have := d.i_part (V := V) hwt hb [] (fun _ => rfl)
    rw [imCall_part e hgj, List.append_nil, h1] at this
    cases this
    exact hgj
  rw [hg'] at hj'
  cases hj'
  have key := hw2.column hul hw hin
  have hv : ∀ q, SMat.nzAt ⟨j.sp, j.data.map fun k => ul.getD k 0⟩ q = (j.nzAt q).bind fun x => ul[x]? := by
    intro q
    rw [show (⟨j.sp, j.data.map fun k => ul.getD k 0⟩ : SMat V) = j.mapData fun k => ul.getD k 0 from rfl, SMat.nzAt_mapData]
    cases hq : j.nzAt q with
    | none => rfl
    | some x =>
      obtain ⟨_, _, h4⟩ := (SMat.nzAt_eq_some hw.1).1 hq
      have hlt := hin x (List.mem_of_getElem? h4)
      simp only [Option.map_some, Option.bind_some]
      rw [List.getD_eq_getElem?_getD, List.getElem?_eq_getElem (by omega), Option.getD_some]
  have ht : Turned (Sparsity.dense d.size 1) j.sp ↔ (j.sp.rows = 1 ∨ (d.size = 1 ∧ j.sp.cols = 1)) := by
    simp [Turned, Sparsity.dense]
  refine ⟨_, ⟨d, ul, []⟩, _, w, hu, ?_, hi3', rfl, by rw [h2, hw1], hw2.wf, fun hn => ?_, fun hn => ?_⟩
  · exact (C48_column nan d ul hul).1
  · have := hw2.shape (fun h => hn (ht.1 h))
    refine SMat.ext_nzAt hw2.wf ⟨hw.1, by simp [hw.2]⟩ this.1 this.2 fun r k => ?_
    rw [hv]
    have := key r k
    rwa [if_neg hn] at this
  · have := hw2.turned (ht.2 hn)
    refine ⟨this.1, this.2, fun r k => ?_⟩
    rw [hv]
    have := key r k
    rwa [if_pos hn] at this

/-- **C107** (`index` and cast, writing): for a part `b` of `t` that is no row (and no column if `t` has size 1), `s[a, index[b]] = v`
does what `o = t(s[a]); o[b] = v; s[a] = o` does, for values that fit; nothing else is changed. -/
theorem C107_cast_write (s : Struct) (hwf : WFs s.entries s.order) (c : CS) (hc : CS.ofStruct s = .ok c) (master : List V)
    (hlen : master.length = c.size) (a : CIdx) (p : Prim) (ha : IsLeaf s.entries a p) (hs : p.symm = false)
    (t : Struct) (hwt : WFs t.entries t.order) (d : CS)
    (hd : CS.ofStruct t = .ok d) (fs : List (Option ShapeFns)) (hss : p.ss = some fs) (h0 : fs[0]? = some (some d.shapeFns))
    (hp : p.sp = .dense d.size 1)
    (b : CIdx) (e : Option Prim) (sp : Sparsity) (hb : IsPart t.entries b e sp) (hs' : ∀ q, e = some q → q.symm = false)
    (hn : ¬ (sp.rows = 1 ∨ (d.size = 1 ∧ sp.cols = 1)))
    (pay : Pay V) (w : SMat V) (hpw : IsValue pay w) (hw : w.WF) (g : ℕ × ℕ → V) (hg : Fits sp w g) (nan : V) :
    ∃ (i : IMat) (u : SMat V) (l l' master' : List V), c.i (V := V) (a.map .ofKey) = .ok (.leaf i) ∧
      (⟨c, master, []⟩ : Obj V).getitem (a.map .ofKey) = .ok (.leaf u) ∧ callDM nan d (.mat u) = .ok ⟨d, l, []⟩ ∧
      (⟨d, l, []⟩ : Obj V).setitem (b.map .ofKey) pay = (.ok (), ⟨d, l', []⟩) ∧
      (⟨c, master, []⟩ : Obj V).setitem (a.map .ofKey ++ [.index b]) pay = (.ok (), ⟨c, master', []⟩) ∧
      (⟨c, master', []⟩ : Obj V).getitem (a.map .ofKey) = .ok (.leaf ⟨p.sp, l'⟩) ∧
      master'.length = master.length ∧ ∀ k ∉ i.data, master'[k]? = master[k]? := by
  obtain ⟨j, h1, rfl, hjw, hin, hnd, -, h2⟩ := C107_index s hwf c hc master a p ha t hwt d hd fs hss h0 b e sp hb
  obtain ⟨i, j', hi, hip, hj', hnd', hW⟩ := C107_matrix_write s hwf c hc master hlen a p ha hs (j.mapData fun k : ℕ => (k : ℤ))
    ⟨hjw.1, by rw [SMat.mapData]; simp [hjw.2]⟩ (by
      intro z hz
      obtain ⟨k, hk, rfl⟩ := List.mem_map.1 hz
      have := hin k hk
      rw [hp]
      simp only [Sparsity.dense, mul_one]
      omega) (by
      rw [SMat.mapData, List.map_map]
      refine hnd.map_on ?_
      intro x hx y hy hxy
      have h3 := hin x hx
      have h4 := hin y hy
      rw [hp] at hxy
      simp only [Function.comp_apply, Sparsity.dense, mul_one] at hxy
      rw [Int.emod_eq_of_lt (by omega) (by omega), Int.emod_eq_of_lt (by omega) (by omega)] at hxy
      exact Int.ofNat.inj hxy)
  obtain ⟨c', ls, hc', rfl, hbc⟩ := ofStruct_built hwf
  rw [hc] at hc'
  cases hc'
  have hs1 : ∀ q, some p = some q → q.symm = false := by rintro _ ⟨⟩; exact hs
  obtain ⟨i1, hg1, _, hi2, hindn, hiin, hi3⟩ := getitem_plain (master := master) hbc hwf hlen (.leaf ha) hs1
  rw [c.i_leaf hwf ha, hg1] at hi
  cases hi
  have hil : i.data.length = d.size := by
    rw [hi2, hp]
    simp [Sparsity.dense, Sparsity.positions_length]
  -- the selected positions
  have hjj : j' = j.mapData fun k => i.data.getD k 0 := by
    have hT : ¬ Turned i.sp (j.mapData fun k : ℕ => (k : ℤ)).sp := by
      intro h
      rw [hip, hp] at h
      apply hn
      have h' : Turned (Sparsity.dense d.size 1) j.sp := h
      simpa [Turned, Sparsity.dense] using h'
    have hsh := hj'.shape hT
    refine SMat.ext_nzAt hj'.wf ⟨hjw.1, by rw [SMat.mapData]; simp [hjw.2]⟩ hsh.1 hsh.2 fun r k => ?_
    have e : i = ⟨.dense d.size 1, i.data⟩ := by rw [← hp, ← hip]
    rw [e] at hj'
    have := hj'.column hil hjw hin r k
    rw [if_neg hn] at this
    rw [this, SMat.nzAt_mapData]
    cases hq : j.nzAt (r, k) with
    | none => rfl
    | some x =>
      obtain ⟨_, _, h4⟩ := (SMat.nzAt_eq_some hjw.1).1 hq
      have hlt := hin x (List.mem_of_getElem? h4)
      simp only [Option.map_some, Option.bind_some]
      rw [List.getD_eq_getElem?_getD, List.getElem?_eq_getElem (by omega), Option.getD_some]
  subst hjj
  have hget : ∀ k (hk : k < d.size), i.data.getD k 0 = i.data[k]'(by omega) := by
    intro k hk
    rw [List.getD_eq_getElem?_getD, List.getElem?_eq_getElem (by omega), Option.getD_some]
  obtain ⟨master', hm1, hm2, hm3, hm4⟩ := hW pay w hpw hw g hg
  have hul : (i.data.map fun k => master.getD k 0).length = d.size := by rw [List.length_map, hil]
  obtain ⟨l', hl1, hl2, hl3, hl4⟩ := C43_extra t hwt d hd _ hul b e _ hb hs' [] (fun _ => rfl) j
    (by rw [List.append_nil]; exact h1) hjw hnd hin pay w hpw hw g hg
  simp only [List.append_nil] at hl1 hl3
  have hread : (⟨c, master', []⟩ : Obj V).getitem (a.map .ofKey) = .ok (.leaf ⟨p.sp, i.data.map fun k => master'.getD k 0⟩) := by
    obtain ⟨i4, hg4, _, _, _, _, h5⟩ := getitem_plain (master := master') hbc hwf (by rw [hm2, hlen]) (.leaf ha) hs1
    rw [hg1] at hg4
    cases hg4
    exact h5
  -- the values at the selected positions
  have hA : ∀ q x : ℕ, j.data[q]? = some x → master'[i.data.getD x 0]? = l'[x]? := by
    intro q x hq
    have hx := hin x (List.mem_of_getElem? hq)
    have e1 : (j.mapData fun k => i.data.getD k 0).data.map (fun k => master'.getD k 0) = j.sp.nz.map g := by
      have h5 := Obj.getitem_part (⟨c, master', []⟩ : Obj V) hwf (.leaf ha) [.mat (j.mapData fun k : ℕ => (k : ℤ))] (by simp)
      simp only at h5
      obtain ⟨jj, hjj, hnj⟩ := getMat_numbered (i := i) (m := j.mapData fun k : ℕ => (k : ℤ))
        ⟨hjw.1, by rw [SMat.mapData]; simp [hjw.2]⟩ (by
          intro z hz
          obtain ⟨k, hk, rfl⟩ := List.mem_map.1 hz
          have := hin k hk
          rw [hip, hp]
          simp only [Sparsity.dense, mul_one]
          omega)
      have hjeq : jj = j.mapData fun k => i.data.getD k 0 := by
        have hT : ¬ Turned i.sp (j.mapData fun k : ℕ => (k : ℤ)).sp := by
          intro h
          rw [hip, hp] at h
          apply hn
          have h' : Turned (Sparsity.dense d.size 1) j.sp := h
          simpa [Turned, Sparsity.dense] using h'
        refine SMat.ext_nzAt hnj.wf hj'.wf ((hnj.shape hT).1.trans (hj'.shape hT).1.symm)
          ((hnj.shape hT).2.trans (hj'.shape hT).2.symm) fun r k => ?_
        have h7 := hnj.elem r k
        have h8 := hj'.elem r k
        rw [if_neg hT] at h7 h8
        rw [h7, h8]
      rw [getCall_plain _ _ _ _ _ hs1 ((imCall_mat hg1 _).trans hjj), hjeq, gather_ok] at h5
      · rw [hm3] at h5
        have := Tree.leaf.inj (Except.ok.inj h5)
        exact (congrArg SMat.data this).symm
      · intro k hk
        rw [hm2, hlen]
        obtain ⟨x, hx, rfl⟩ := List.mem_map.1 hk
        exact hiin _ (by rw [hget x (hin x hx)]; exact List.getElem_mem _)
    have e2 : j.data.map (fun k => l'.getD k 0) = j.sp.nz.map g := by
      obtain ⟨d', ls', hd', rfl, hbd⟩ := ofStruct_built hwt
      rw [hd] at hd'
      cases hd'
      obtain ⟨j4, hg4, _, _, _, _, h5⟩ := getitem_plain (master := l') hbd hwt (by rw [hl2, hul]) hb hs'
      have := d.i_part (V := V) hwt hb [] (fun _ => rfl)
      rw [imCall_part e hg4, List.append_nil, h1] at this
      cases this
      rw [hl3] at h5
      have := Tree.leaf.inj (Except.ok.inj h5)
      exact (congrArg SMat.data this).symm
    have e3 := congrArg (fun l => l[q]?) (e1.trans e2.symm)
    simp only [SMat.mapData, List.getElem?_map, hq, Option.map_some, Option.some.injEq] at e3
    have hlt1 : i.data.getD x 0 < master'.length := by
      rw [hm2, hlen, hget x hx]
      exact hiin _ (List.getElem_mem _)
    have hlt2 : x < l'.length := by rw [hl2, hul]; exact hx
    rw [List.getD_eq_getElem?_getD (l := master'), List.getD_eq_getElem?_getD (l := l'), List.getElem?_eq_getElem hlt1,
      List.getElem?_eq_getElem hlt2, Option.getD_some, Option.getD_some] at e3
    rw [List.getElem?_eq_getElem hlt1, List.getElem?_eq_getElem hlt2, e3]
  refine ⟨i, _, _, l', master', by rw [c.i_leaf hwf ha, hg1], hi3, ?_, hl1, by rw [h2]; exact hm1, ?_, hm2, fun k hk => ?_⟩
  · rw [hp]
    exact (C48_column nan d _ hul).1
  · rw [hread]
    congr 3
    apply List.ext_getElem?
    intro k
    by_cases hk : k < d.size
    · have hkl : k < l'.length := by rw [hl2, hul]; exact hk
      have hlt : i.data.getD k 0 < master'.length := by
        rw [hm2, hlen, hget k hk]
        exact hiin _ (List.getElem_mem _)
      have key : master'[i.data.getD k 0]? = l'[k]? := by
        by_cases hj : k ∈ j.data
        · obtain ⟨q, hq⟩ := List.getElem?_of_mem hj
          exact hA q k hq
        · rw [hl4 k hj, hm4]
          · rw [List.getElem?_map, List.getElem?_eq_getElem (by omega : k < i.data.length), Option.map_some, hget k hk,
              List.getElem?_eq_getElem (by rw [hlen]; exact hiin _ (List.getElem_mem _)), List.getD_eq_getElem?_getD,
              List.getElem?_eq_getElem (by rw [hlen]; exact hiin _ (List.getElem_mem _)), Option.getD_some]
          · intro h
            obtain ⟨x, hx, hxe⟩ := List.mem_map.1 h
            rw [hget x (hin x hx), hget k hk] at hxe
            have := (List.Nodup.getElem_inj_iff hindn).1 hxe
            subst this
            exact hj hx
      rw [List.getElem?_map, List.getElem?_eq_getElem (by omega : k < i.data.length), Option.map_some, ← key, hget k hk,
        List.getD_eq_getElem?_getD, List.getElem?_eq_getElem (by rw [← hget k hk]; exact hlt), Option.getD_some]
    · rw [List.getElem?_eq_none (by rw [List.length_map]; omega), List.getElem?_eq_none (by omega)]
  · apply hm4
    intro h
    obtain ⟨x, hx, hxe⟩ := List.mem_map.1 h
    apply hk
    rw [← hxe, hget x (hin x hx)]
    exact List.getElem_mem _

omit [Zero V] [Add V] [Sub V] in
theorem delegation_index_raise {F : Type} {p : Prim} {b : CIdx} {k : ℕ}
    (h : p.ss = none ∨ ∃ fs, p.ss = some fs ∧ (fs[k]? = none ∨ fs[k]? = some none ∨ ∃ d : CS, fs[k]? = some (some d.shapeFns) ∧
      ∀ j, d.i (V := Empty) (b.map .ofKey) ≠ .ok (.leaf j))) : ∃ e, delegation (F := F) (.index b) (some p) k = .error e := by
  have hm : (b.map (PIdx.ofKey (F := Empty))).map (PIdx.lift (F := PyFn Empty)) = b.map .ofKey := by
    rw [List.map_map]
    exact List.map_congr_left fun k _ => by cases k <;> rfl
  rcases h with h | ⟨fs, h, h' | h' | ⟨d, h', hd⟩⟩
  · simp only [delegation, h]; exact ⟨_, rfl⟩
  · simp only [delegation, h, h']; exact ⟨_, rfl⟩
  · simp only [delegation, h, h']; exact ⟨_, rfl⟩
  · simp only [delegation, h, h', CS.shapeFns, hm]
    cases hi : d.i (V := Empty) (b.map .ofKey) with
    | error e => exact ⟨_, rfl⟩
    | ok t =>
      cases t with
      | leaf j => exact absurd hi (hd j)
      | list _ => exact ⟨_, rfl⟩
      | dict _ => exact ⟨_, rfl⟩

/-- **C107** (`index`, invalid): without a `shapestruct`, where it is a number, or if the struct has no such part, `s[a, index[b]]` raises,
and nothing is changed. -/
theorem C107_index_raise (s : Struct) (hwf : WFs s.entries s.order) (c : CS) (hc : CS.ofStruct s = .ok c) (master : List V)
    (a : CIdx) (p : Prim) (ha : IsLeaf s.entries a p) (b : CIdx)
    (h : p.ss = none ∨ ∃ fs, p.ss = some fs ∧ (fs[0]? = none ∨ fs[0]? = some none ∨ ∃ d : CS, fs[0]? = some (some d.shapeFns) ∧
      ∀ j, d.i (V := Empty) (b.map .ofKey) ≠ .ok (.leaf j))) :
    (⟨c, master, []⟩ : Obj V).getitem (a.map .ofKey ++ [.index b]) = .error .generic ∧
      ∀ pay, (⟨c, master, []⟩ : Obj V).setitem (a.map .ofKey ++ [.index b]) pay = (.error .generic, ⟨c, master, []⟩) := by
  obtain ⟨c', ls, hc', rfl, hb⟩ := ofStruct_built hwf
  rw [hc] at hc'
  cases hc'
  obtain ⟨i, hg, hw, hnd, hin, hsp⟩ := hb.part hwf (.leaf ha)
  have he : ∃ e, performExtraIndex (applyIdx (V := V)) i (some p) false [.index b] = .error e := by
    obtain ⟨e, he⟩ := delegation_index_raise (F := PyFn V) h
    refine ⟨e, ?_⟩
    rw [performExtraIndex, he]
    · rfl
    all_goals simp
  obtain ⟨e, he⟩ := he
  constructor
  · rw [Obj.getitem_part _ hwf (.leaf ha) _ (by simp), getCall, hg]
    simp only [dictGet, List.lookup_nil, Option.getD_some, he]
    rfl
  · intro pay
    rw [Obj.setitem_part _ hwf (.leaf ha) _ (by simp), setCall]
    cases pay.toMat with
    | error _ => rfl
    | ok m =>
      simp only [hg, Option.getD_some, he]
      rfl

end

/-! ## Examples -/

/-- `struct([entry("x", shape=2), entry("r", shape=(1, 2))])` -/
def exShape : Struct :=
  ⟨[.prim "x" [] ⟨.dense 2 1, false, none, none⟩, .prim "r" [] ⟨.dense 1 2, false, none, none⟩], [.one "x", .one "r"]⟩

theorem exShape_wf : WFs exShape.entries exShape.order := by
  refine .mk (by simp [exShape, Entry.name]) (by simp [exShape, OrderItem.names, Entry.name]) ?_ ?_
  · intro n d p h
    simp only [exShape, List.mem_cons, Entry.prim.injEq, List.not_mem_nil, or_false] at h
    rcases h with ⟨_, _, rfl⟩ | ⟨_, _, rfl⟩ <;> exact Sparsity.dense_canon _ _
  · intro n d es o h
    simp [exShape] at h

/-- `struct([entry("a"), entry("v", shapestruct=exShape, repeat=[2])])` -/
def exDelayed (d : CS) : Struct :=
  ⟨[.prim "a" [] ⟨.dense 1 1, false, none, none⟩, .prim "v" [2] ⟨.dense 4 1, false, none, some [some d.shapeFns, none]⟩],
    [.one "a", .one "v"]⟩

theorem exDelayed_wf (d : CS) : WFs (exDelayed d).entries (exDelayed d).order := by
  refine .mk (by simp [exDelayed, Entry.name]) (by simp [exDelayed, OrderItem.names, Entry.name]) ?_ ?_
  · intro n d p h
    simp only [exDelayed, List.mem_cons, Entry.prim.injEq, List.not_mem_nil, or_false] at h
    rcases h with ⟨_, _, rfl⟩ | ⟨_, _, rfl⟩ <;> exact Sparsity.dense_canon _ _
  · intro n d es o h
    simp [exDelayed] at h

/-- `s['v', 1, index['x']]` is `exShape(s['v', 1])['x']`; but `s['v', 1, index['r']]` is a column, while `exShape(s['v', 1])['r']` is
a row. -/
example : ∃ d c, CS.ofStruct exShape = .ok d ∧ CS.ofStruct (exDelayed d) = .ok c ∧ ∀ master : List ℤ, master.length = c.size →
    ∃ o : Obj ℤ, (∃ u, (⟨c, master, []⟩ : Obj ℤ).getitem [.str "v", .int 1] = .ok (.leaf u) ∧ callDM 0 d (.mat u) = .ok o) ∧
      (⟨c, master, []⟩ : Obj ℤ).getitem [.str "v", .int 1, .index [.str "x"]] = o.getitem [.str "x"] ∧
      (∃ w v, (⟨c, master, []⟩ : Obj ℤ).getitem [.str "v", .int 1, .index [.str "r"]] = .ok (.leaf w) ∧
        o.getitem [.str "r"] = .ok (.leaf v) ∧ w.sp.rows = 2 ∧ w.sp.cols = 1 ∧ v.sp.rows = 1 ∧ v.sp.cols = 2 ∧
        w.nzAt (1, 0) = v.nzAt (0, 1)) := by
  obtain ⟨d, hd, hsz, -⟩ := C39_size exShape exShape_wf
  have hsz : d.size = 4 := by rw [hsz]; rfl
  obtain ⟨c, -, hc, -, -⟩ := ofStruct_built (exDelayed_wf d)
  refine ⟨d, c, hd, hc, fun master hlen => ?_⟩
  have ha : IsLeaf (exDelayed d).entries [.str "v", .int 1] ⟨.dense 4 1, false, none, some [some d.shapeFns, none]⟩ :=
    .prim (dims := [2]) (by simp [exDelayed]) (.cons ⟨1, by omega, rfl⟩ .nil)
  have hx : IsPart exShape.entries [.str "x"] (some ⟨.dense 2 1, false, none, none⟩) (.dense 2 1) :=
    .leaf (p := ⟨.dense 2 1, false, none, none⟩) (.prim (dims := []) (by simp [exShape]) .nil)
  have hr : IsPart exShape.entries [.str "r"] (some ⟨.dense 1 2, false, none, none⟩) (.dense 1 2) :=
    .leaf (p := ⟨.dense 1 2, false, none, none⟩) (.prim (dims := []) (by simp [exShape]) .nil)
  obtain ⟨u, o, v, w, h1, h2, h3, h4, h5, h6, h7, h8⟩ := C107_cast _ (exDelayed_wf d) c hc master hlen _ _ ha rfl _ exShape_wf d hd
    _ rfl rfl (by rw [hsz]) _ _ _ hx (by rintro _ ⟨⟩; rfl) 0
  obtain ⟨u', o', v', w', h1', h2', h3', h4', h5', h6', h7', h8'⟩ := C107_cast _ (exDelayed_wf d) c hc master hlen _ _ ha rfl _
    exShape_wf d hd _ rfl rfl (by rw [hsz]) _ _ _ hr (by rintro _ ⟨⟩; rfl) 0
  rw [h1] at h1'
  cases h1'
  rw [h2] at h2'
  cases h2'
  have e := h8' (.inl rfl)
  refine ⟨o, ⟨u, h1, h2⟩, ?_, w', v', h5', h3', e.1, e.2.1, by rw [h4']; rfl, by rw [h4']; rfl, e.2.2 0 1⟩
  have : w = v := h7 (by simp [Sparsity.dense, hsz])
  rw [this] at h5
  exact h5.trans h3.symm

/-- `s['v', 1, m]` for the row `m = [3, -4]`: the column of the last and the first element; and `s['v', 1, m] = [5, 6]` changes these. -/
example : ∃ d c, CS.ofStruct exShape = .ok d ∧ CS.ofStruct (exDelayed d) = .ok c ∧ ∀ master : List ℤ, master.length = c.size →
    (∃ u v, (⟨c, master, []⟩ : Obj ℤ).getitem [.str "v", .int 1] = .ok (.leaf u) ∧
      (⟨c, master, []⟩ : Obj ℤ).getitem [.str "v", .int 1, .mat ⟨.dense 1 2, [3, -4]⟩] = .ok (.leaf v) ∧
      v.sp.rows = 2 ∧ v.sp.cols = 1 ∧ v.nzAt (0, 0) = u.nzAt (3, 0) ∧ v.nzAt (1, 0) = u.nzAt (0, 0)) ∧
    ∃ master', (⟨c, master, []⟩ : Obj ℤ).setitem [.str "v", .int 1, .mat ⟨.dense 1 2, [3, -4]⟩] (.mat (.col [5, 6])) =
      (.ok (), ⟨c, master', []⟩) ∧ ∃ sp : Sparsity, sp.rows = 2 ∧ sp.cols = 1 ∧
        (⟨c, master', []⟩ : Obj ℤ).getitem [.str "v", .int 1, .mat ⟨.dense 1 2, [3, -4]⟩] =
          .ok (.leaf (.fill sp (SMat.col [5, 6]).at')) := by
  obtain ⟨d, hd, hsz, -⟩ := C39_size exShape exShape_wf
  obtain ⟨c, -, hc, -, -⟩ := ofStruct_built (exDelayed_wf d)
  refine ⟨d, c, hd, hc, fun master hlen => ?_⟩
  have ha : IsLeaf (exDelayed d).entries [.str "v", .int 1] ⟨.dense 4 1, false, none, some [some d.shapeFns, none]⟩ :=
    .prim (dims := [2]) (by simp [exDelayed]) (.cons ⟨1, by omega, rfl⟩ .nil)
  have hmw : (⟨.dense 1 2, [3, -4]⟩ : SMat ℤ).WF := ⟨Sparsity.dense_canon _ _, rfl⟩
  have hT : Turned (Sparsity.dense 4 1) (Sparsity.dense 1 2) := .inl ⟨rfl, rfl⟩
  have hr : ∀ z ∈ [(3 : ℤ), -4], -((4 * 1 : ℕ) : ℤ) ≤ z ∧ z < ((4 * 1 : ℕ) : ℤ) := by simp
  constructor
  · obtain ⟨⟨usp, ul⟩, v, h1, h2, h3, h4⟩ := C107_matrix _ (exDelayed_wf d) c hc master hlen _ _ ha rfl _ hmw hr
    simp only at h2
    subst h2
    have e0 := h4.elem 0 0
    have e1 := h4.elem 0 1
    rw [if_pos hT] at e0 e1
    rw [show (⟨.dense 1 2, [3, -4]⟩ : SMat ℤ).nzAt (0, 0) = some 3 by decide] at e0
    rw [show (⟨.dense 1 2, [3, -4]⟩ : SMat ℤ).nzAt (0, 1) = some (-4) by decide] at e1
    exact ⟨_, v, h1, h3, (h4.turned hT).1, (h4.turned hT).2,
      e0.trans (congrArg (SMat.nzAt ⟨.dense 4 1, ul⟩)
        (show (((3 : ℤ) % ((4 * 1 : ℕ) : ℤ)).toNat % 4, ((3 : ℤ) % ((4 * 1 : ℕ) : ℤ)).toNat / 4) = (3, 0) by decide)),
      e1.trans (congrArg (SMat.nzAt ⟨.dense 4 1, ul⟩)
        (show (((-4 : ℤ) % ((4 * 1 : ℕ) : ℤ)).toNat % 4, ((-4 : ℤ) % ((4 * 1 : ℕ) : ℤ)).toNat / 4) = (0, 0) by decide))⟩
  · obtain ⟨⟨isp, il⟩, j, h1, h2, h3, h4, h5⟩ := C107_matrix_write _ (exDelayed_wf d) c hc master hlen _ _ ha rfl _ hmw hr
      (show ([(3 : ℤ), -4].map (· % ((4 * 1 : ℕ) : ℤ))).Nodup by decide)
    simp only at h2
    subst h2
    have ht := h3.turned hT
    have ht : j.sp.rows = 2 ∧ j.sp.cols = 1 := ht
    obtain ⟨master', h6, _, h7, _⟩ := h5 (.mat (.col [5, 6])) _ (.mat _) ⟨Sparsity.dense_canon _ _, rfl⟩ _
      (.same (by rw [ht.1]; rfl) (by rw [ht.2]; rfl))
    exact ⟨master', h6, j.sp, ht.1, ht.2, h7⟩

/-- `s['v', 1, index['x']] = 7` is `o = exShape(s['v', 1]); o['x'] = 7; s['v', 1] = o`; `s['a', index['x']]`, `s['v', 1, index['y']]` and
the number 4 in a matrix index raise. -/
example : ∃ d c, CS.ofStruct exShape = .ok d ∧ CS.ofStruct (exDelayed d) = .ok c ∧ ∀ master : List ℤ, master.length = c.size →
    (∃ (u : SMat ℤ) (l l' master' : List ℤ), (⟨c, master, []⟩ : Obj ℤ).getitem [.str "v", .int 1] = .ok (.leaf u) ∧
      callDM 0 d (.mat u) = .ok ⟨d, l, []⟩ ∧ (⟨d, l, []⟩ : Obj ℤ).setitem [.str "x"] (.num 7) = (.ok (), ⟨d, l', []⟩) ∧
      (⟨c, master, []⟩ : Obj ℤ).setitem [.str "v", .int 1, .index [.str "x"]] (.num 7) = (.ok (), ⟨c, master', []⟩) ∧
      (⟨c, master', []⟩ : Obj ℤ).getitem [.str "v", .int 1] = .ok (.leaf ⟨.dense 4 1, l'⟩)) ∧
    (∃ j, d.i (V := ℤ) [.str "r"] = .ok (.leaf j) ∧ j.sp = .dense 1 2 ∧
      (⟨c, master, []⟩ : Obj ℤ).getitem [.str "v", .int 1, .index [.str "r"]] =
        (⟨c, master, []⟩ : Obj ℤ).getitem [.str "v", .int 1, .mat (j.mapData fun k : ℕ => (k : ℤ))]) ∧
    (⟨c, master, []⟩ : Obj ℤ).getitem [.str "a", .index [.str "x"]] = .error .generic ∧
    (⟨c, master, []⟩ : Obj ℤ).getitem [.str "v", .int 1, .mat ⟨.dense 1 2, [0, 4]⟩] = .error .generic := by
  obtain ⟨d, hd, hsz, -⟩ := C39_size exShape exShape_wf
  have hsz : d.size = 4 := by rw [hsz]; rfl
  obtain ⟨c, -, hc, -, -⟩ := ofStruct_built (exDelayed_wf d)
  refine ⟨d, c, hd, hc, fun master hlen => ?_⟩
  have ha : IsLeaf (exDelayed d).entries [.str "v", .int 1] ⟨.dense 4 1, false, none, some [some d.shapeFns, none]⟩ :=
    .prim (dims := [2]) (by simp [exDelayed]) (.cons ⟨1, by omega, rfl⟩ .nil)
  have ha' : IsLeaf (exDelayed d).entries [.str "a"] ⟨.dense 1 1, false, none, none⟩ :=
    .prim (dims := []) (by simp [exDelayed]) .nil
  have hx : IsPart exShape.entries [.str "x"] (some ⟨.dense 2 1, false, none, none⟩) (.dense 2 1) :=
    .leaf (p := ⟨.dense 2 1, false, none, none⟩) (.prim (dims := []) (by simp [exShape]) .nil)
  have hr : IsPart exShape.entries [.str "r"] (some ⟨.dense 1 2, false, none, none⟩) (.dense 1 2) :=
    .leaf (p := ⟨.dense 1 2, false, none, none⟩) (.prim (dims := []) (by simp [exShape]) .nil)
  obtain ⟨i, u, l, l', m', -, h1, h2, h3, h4, h5, -⟩ := C107_cast_write _ (exDelayed_wf d) c hc master hlen _ _ ha rfl _ exShape_wf d hd
    _ rfl rfl (by rw [hsz]) _ _ _ hx (by rintro _ ⟨⟩; rfl) (by simp [Sparsity.dense, hsz]) (.num 7) _ (.num 7)
    ⟨Sparsity.dense_canon _ _, rfl⟩ _ (.scalar rfl rfl) 0
  obtain ⟨j, k1, k2, -, -, -, k3, -⟩ := C107_index _ (exDelayed_wf d) c hc master _ _ ha _ exShape_wf d hd _ rfl rfl _ _ _ hr
  exact ⟨⟨u, l, l', m', h1, h2, h3, h4, h5⟩, ⟨j, k1, k2, k3⟩,
    (C107_index_raise _ (exDelayed_wf d) c hc master _ _ ha' [.str "x"] (.inl rfl)).1,
    (C107_matrix_raise _ (exDelayed_wf d) c hc master _ _ ha ⟨.dense 1 2, [0, 4]⟩ 4 (by simp) (.inr (by simp [Sparsity.dense]))).1⟩

end CE.St
