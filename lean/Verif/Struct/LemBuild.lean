import Verif.Struct.LemLayout

/-! # The maps of a `CasadiStructure` -/

namespace CE.St

/-- Consecutive positions from `k` on. -/
def block (k n : ℕ) : List ℕ := (List.range n).map (k + ·)

theorem block_length (k n : ℕ) : (block k n).length = n := by simp [block]

theorem mem_block {k n i : ℕ} : i ∈ block k n ↔ k ≤ i ∧ i < k + n := by
  simp only [block, List.mem_map, List.mem_range]
  constructor
  · rintro ⟨j, hj, rfl⟩; omega
  · intro h; exact ⟨i - k, by omega, by omega⟩

theorem block_append (k m n : ℕ) : block k m ++ block (k + m) n = block k (m + n) := by
  unfold block
  rw [List.range_add, List.map_append, List.map_map]
  congr 1
  apply List.map_congr_left
  intro i _
  simp only [Function.comp]; omega

theorem block_shift (j k n : ℕ) : (block k n).map (j + ·) = block (j + k) n := by
  unfold block
  rw [List.map_map]
  apply List.map_congr_left
  intro i _
  simp only [Function.comp]; omega

theorem block_nodup (k n : ℕ) : (block k n).Nodup :=
  (List.nodup_map_iff (fun a b h => by omega)).2 List.nodup_range

/-- The index matrices of elements laid out one after another. -/
def layoutOf : ℕ → List (CIdx × Sparsity) → List (CIdx × IMat)
  | _, [] => []
  | k, (i, sp) :: ls => (i, ⟨sp, block k sp.nnz⟩) :: layoutOf (k + sp.nnz) ls

/-- Their total size. -/
def sizeOf' (ls : List (CIdx × Sparsity)) : ℕ := (ls.map fun x => x.2.nnz).sum

theorem layoutOf_keys (k : ℕ) (ls : List (CIdx × Sparsity)) : (layoutOf k ls).map (·.1) = ls.map (·.1) := by
  induction ls generalizing k with
  | nil => rfl
  | cons x ls ih => simp [layoutOf, ih]

theorem layoutOf_append (k : ℕ) (a b : List (CIdx × Sparsity)) :
    layoutOf k (a ++ b) = layoutOf k a ++ layoutOf (k + sizeOf' a) b := by
  induction a generalizing k with
  | nil => simp [layoutOf, sizeOf']
  | cons x a ih =>
    simp only [List.cons_append, layoutOf, ih, sizeOf', List.map_cons, List.sum_cons]
    rw [Nat.add_assoc]

theorem layoutOf_data (k : ℕ) (ls : List (CIdx × Sparsity)) :
    (layoutOf k ls).flatMap (fun x => x.2.data) = block k (sizeOf' ls) := by
  induction ls generalizing k with
  | nil => rfl
  | cons x ls ih =>
    simp only [layoutOf, List.flatMap_cons, ih, sizeOf', List.map_cons, List.sum_cons]
    rw [block_append]

theorem mem_layoutOf {k : ℕ} {ls : List (CIdx × Sparsity)} {x : CIdx × IMat} (h : x ∈ layoutOf k ls) :
    ∃ pre sp post, ls = pre ++ (x.1, sp) :: post ∧ x.2 = ⟨sp, block (k + sizeOf' pre) sp.nnz⟩ := by
  induction ls generalizing k with
  | nil => simp [layoutOf] at h
  | cons y ls ih =>
    rw [layoutOf] at h
    rcases List.mem_cons.1 h with rfl | h
    · exact ⟨[], y.2, ls, by simp, by simp [sizeOf']⟩
    · obtain ⟨pre, sp, post, e, e'⟩ := ih h
      refine ⟨y :: pre, sp, post, by rw [e]; rfl, ?_⟩
      rw [e']
      simp [sizeOf', Nat.add_assoc]

/-- The rows of the lookup table for given elements. -/
def tableOf (ls : List (CIdx × Sparsity)) : List (CIdx × ℕ × (ℕ × ℕ)) :=
  ls.flatMap fun x => x.2.nz.zipIdx.map fun p => (x.1, p.2, (p.1.2, p.1.1))

theorem tableOf_length (ls : List (CIdx × Sparsity)) : (tableOf ls).length = sizeOf' ls := by
  rw [tableOf, sizeOf', List.length_flatMap]
  congr 1
  apply List.map_congr_left
  intro x _
  simp [Sparsity.nnz]

/-- One update of `hmap`. -/
def hstep (m : IMat) (h : List (CIdx × List IMat)) (a : CIdx) : List (CIdx × List IMat) :=
  match dictGet h a with
  | some l => dictSet h a (l ++ [m])
  | none => dictSet h a [m]

theorem hstep_get (m : IMat) (h : List (CIdx × List IMat)) (a b : CIdx) :
    dictGet (hstep m h a) b = if a = b then some ((dictGet h a).getD [] ++ [m]) else dictGet h b := by
  unfold hstep
  cases hh : dictGet h a with
  | none => simp only [dictGet_dictSet]; simp
  | some l => simp only [dictGet_dictSet]; simp

theorem hstep_nodup (m : IMat) (h : List (CIdx × List IMat)) (a : CIdx) (hn : (h.map (·.1)).Nodup) :
    ((hstep m h a).map (·.1)).Nodup := by
  unfold hstep
  cases dictGet h a <;> exact dictSet_nodup _ _ hn

theorem hfold_get (m : IMat) (as : List CIdx) (has : as.Nodup) (h : List (CIdx × List IMat)) (b : CIdx) :
    dictGet (as.foldl (hstep m) h) b = if b ∈ as then some ((dictGet h b).getD [] ++ [m]) else dictGet h b := by
  induction as generalizing h with
  | nil => simp
  | cons a as ih =>
    rw [List.nodup_cons] at has
    rw [List.foldl_cons, ih has.2, hstep_get]
    by_cases hab : a = b
    · subst hab
      rw [if_neg has.1, if_pos rfl, if_pos List.mem_cons_self]
    · rw [if_neg hab]
      by_cases hb : b ∈ as
      · rw [if_pos hb, if_pos (List.mem_cons_of_mem _ hb)]
      · rw [if_neg hb, if_neg]
        intro h
        rcases List.mem_cons.1 h with h | h
        · exact hab h.symm
        · exact hb h

theorem hfold_nodup (m : IMat) (as : List CIdx) (h : List (CIdx × List IMat)) (hn : (h.map (·.1)).Nodup) :
    ((as.foldl (hstep m) h).map (·.1)).Nodup := by
  induction as generalizing h with
  | nil => exact hn
  | cons a as ih => rw [List.foldl_cons]; exact ih _ (hstep_nodup m h a hn)

/-- The matrices of the elements below `a`. -/
def below (a : CIdx) (l : List (CIdx × IMat)) : List IMat :=
  l.filterMap fun x => if a ∈ (canonicalIndexAncestors x.1).tail then some x.2 else none

theorem Build.run_spec (s : Struct) (ls : List (CIdx × Sparsity))
    (hls : ∀ x ∈ ls, ∃ e, s.entryByCanonical x.1 = .ok e ∧ e.sparsity = x.2) (b : Build)
    (hnd : (b.map.map (·.1) ++ ls.map (·.1)).Nodup) (hhn : (b.hmap.map (·.1)).Nodup)
    (hne : ∀ a, dictGet b.hmap a ≠ some []) :
    ∃ b', Build.run s (ls.map (·.1)) b = .ok b' ∧ b'.k = b.k + sizeOf' ls ∧ b'.table = b.table ++ tableOf ls ∧
      b'.map = b.map ++ layoutOf b.k ls ∧ (b'.hmap.map (·.1)).Nodup ∧ (∀ a, dictGet b'.hmap a ≠ some []) ∧
      ∀ a, (dictGet b'.hmap a).getD [] = (dictGet b.hmap a).getD [] ++ below a (layoutOf b.k ls) := by
  induction ls generalizing b with
  | nil => exact ⟨b, rfl, by simp [sizeOf'], by simp [tableOf], by simp [layoutOf], hhn, hne, by simp [layoutOf, below]⟩
  | cons x ls ih =>
    obtain ⟨e, he, hsp⟩ := hls x List.mem_cons_self
    obtain ⟨i, sp⟩ := x
    simp only at he hsp
    have hfresh : i ∉ b.map.map (·.1) := by
      intro h
      exact (List.nodup_append.1 hnd).2.2 i h i (by simp) rfl
    have hmap : (b.step i sp).map = b.map ++ [(i, ⟨sp, block b.k sp.nnz⟩)] := by
      simp only [Build.step]
      rw [dictSet_fresh _ hfresh]
      rfl
    have hhmap : (b.step i sp).hmap =
        (canonicalIndexAncestors i).tail.foldl (hstep ⟨sp, block b.k sp.nnz⟩) b.hmap := rfl
    have hat : (canonicalIndexAncestors i).tail.Nodup :=
      (List.tail_sublist _).nodup (ancestors_nodup i)
    obtain ⟨b', h1, h2, h3, h4, h5, h6, h7⟩ := ih (fun y hy => hls y (List.mem_cons_of_mem _ hy)) (b.step i sp)
      (by
        rw [hmap, List.map_append, List.append_assoc]
        exact hnd)
      (by rw [hhmap]; exact hfold_nodup _ _ _ hhn)
      (by
        intro a
        rw [hhmap, hfold_get _ _ hat]
        split
        · simp
        · exact hne a)
    refine ⟨b', ?_, ?_, ?_, ?_, h5, h6, ?_⟩
    · rw [List.map_cons, Build.run]
      simp only [he, hsp]
      exact h1
    · rw [h2]
      simp [Build.step, sizeOf', Nat.add_assoc]
    · rw [h3]
      simp [Build.step, tableOf]
    · rw [h4, hmap]
      simp [layoutOf, Build.step]
    · intro a
      rw [h7, hhmap, hfold_get _ _ hat]
      have : (b.step i sp).k = b.k + sp.nnz := rfl
      rw [this]
      simp only [layoutOf, below]
      by_cases ha : a ∈ (canonicalIndexAncestors i).tail
      · rw [if_pos ha, List.filterMap_cons_some (b := ⟨sp, block b.k sp.nnz⟩) (by simp only [if_pos ha])]
        simp
      · rw [if_neg ha, List.filterMap_cons_none (by simp only [if_neg ha])]

/-- What the constructor of a well-formed `CasadiStructure` computes. -/
structure Built (c : CS) (ls : List (CIdx × Sparsity)) : Prop where
  keys : ls.map (·.1) = leafList c.struct.entries c.struct.order
  leaf : ∀ x ∈ ls, ∃ p, IsLeaf c.struct.entries x.1 p ∧ x.2 = p.sp
  size : c.size = sizeOf' ls
  table : c.table = tableOf ls
  get : ∀ a, dictGet c.map a = if below a (layoutOf 0 ls) = [] then dictGet (layoutOf 0 ls) a
    else some (nzCat (below a (layoutOf 0 ls)))

theorem exists_leaves {es : List Entry} {o : List OrderItem} (h : WFs es o) :
    ∃ ls : List (CIdx × Sparsity), ls.map (·.1) = leafList es o ∧ ∀ x ∈ ls, ∃ p, IsLeaf es x.1 p ∧ x.2 = p.sp := by
  have key : ∀ l : List CIdx, (∀ c ∈ l, ∃ p, IsLeaf es c p) → ∃ ls : List (CIdx × Sparsity),
      ls.map (·.1) = l ∧ ∀ x ∈ ls, ∃ p, IsLeaf es x.1 p ∧ x.2 = p.sp := by
    intro l
    induction l with
    | nil => intro _; exact ⟨[], rfl, by simp⟩
    | cons c l ih =>
      intro hl
      obtain ⟨ls, h1, h2⟩ := ih fun c hc => hl c (List.mem_cons_of_mem _ hc)
      obtain ⟨p, hp⟩ := hl c List.mem_cons_self
      refine ⟨(c, p.sp) :: ls, by simp [h1], ?_⟩
      intro x hx
      rcases List.mem_cons.1 hx with rfl | hx
      · exact ⟨p, hp, rfl⟩
      · exact h2 x hx
  exact key _ fun c hc => (mem_leafList h).1 hc

theorem ofStruct_built {s : Struct} (h : WFs s.entries s.order) :
    ∃ c ls, CS.ofStruct s = .ok c ∧ c.struct = s ∧ Built c ls := by
  obtain ⟨ls, h1, h2⟩ := exists_leaves h
  obtain ⟨b, hb1, hb2, hb3, hb4, hb5, hb6, hb7⟩ := Build.run_spec s ls (by
    intro x hx
    obtain ⟨p, hp, e⟩ := h2 x hx
    obtain ⟨n, d, hh⟩ := hp.entryByPath h
    exact ⟨_, hh, e.symm⟩) {} (by
      rw [h1]
      simpa using leafList_nodup h) (by simp) (by intro a; simp [dictGet_nil])
  refine ⟨⟨s, dictUpdate b.map (b.hmap.map fun p => (p.1, nzCat p.2)), b.table, b.k⟩, ls, ?_, ?_, ?_⟩
  · rw [CS.ofStruct, traverseCanonicalIndex_eq, ← h1, hb1]
  · rfl
  · refine ⟨h1, h2, by simpa using hb2, by simpa using hb3, ?_⟩
    intro a
    have hk : ((b.hmap.map fun p => (p.1, nzCat p.2)).map (·.1)) = b.hmap.map (·.1) := by
      rw [List.map_map]; rfl
    simp only
    rw [dictGet_dictUpdate _ _ (by rw [hk]; exact hb5), dictGet_map_val, hb4]
    have h7 := hb7 a
    simp only [dictGet_nil, Option.getD_none, List.nil_append] at h7
    have h6 := hb6 a
    rw [← h7]
    cases hd : dictGet b.hmap a with
    | none => simp
    | some l =>
      have hne : l ≠ [] := by
        rintro rfl
        exact h6 hd
      simp [hne]

end CE.St
